import Verif.Props.Queries

/-!
# A response of several answers, answer by answer

What the queries are told while the answers of one packet enter the cache.
-/

namespace Mdns

/-- The callback registered at that moment for the name and type was told a record `b` with `P b`. -/
def Told (log evs : List Event) (n : Bytes) (t : Nat) (P : Answer → Prop) : Prop :=
  ∃ pre q cb b post, evs = pre ++ .answer q cb b :: post ∧ callback (log ++ pre) n t = some cb ∧ P b

theorem Told.after {log evs evs' : List Event} {n : Bytes} {t : Nat} {P : Answer → Prop} (h : Told log evs n t P) :
    Told log (evs ++ evs') n t P := by
  obtain ⟨pre, q, cb, b, post, rfl, h1, h2⟩ := h
  exact ⟨pre, q, cb, b, post ++ evs', by simp, h1, h2⟩

theorem Told.before {log evs evs' : List Event} {n : Bytes} {t : Nat} {P : Answer → Prop} (h : Told (log ++ evs) evs' n t P) :
    Told log (evs ++ evs') n t P := by
  obtain ⟨pre, q, cb, b, post, rfl, h1, h2⟩ := h
  exact ⟨evs ++ pre, q, cb, b, post, by simp, by rw [← List.append_assoc]; exact h1, h2⟩

theorem Told.imp {log evs : List Event} {n : Bytes} {t : Nat} {P P' : Answer → Prop} (h : Told log evs n t P)
    (hp : ∀ b, P b → P' b) : Told log evs n t P' := by
  obtain ⟨pre, q, cb, b, post, e, h1, h2⟩ := h
  exact ⟨pre, q, cb, b, post, e, h1, hp b h2⟩

theorem callback_stays {n : Bytes} {t : Nat} : ∀ (evs : List Event) {log : List Event}, Event.unregistered n t ∉ evs →
    (callback log n t).isSome → (callback (log ++ evs) n t).isSome
  | [], log, _, h => by rw [List.append_nil]; exact h
  | e :: evs, log, hn, h => by
    have : log ++ e :: evs = (log ++ [e]) ++ evs := by simp
    rw [this]
    refine callback_stays evs (fun m => hn (by simp [m])) ?_
    unfold callback at h ⊢
    rw [List.foldl_append]
    cases e with
    | registered a b cb =>
      simp only [List.foldl_cons, List.foldl_nil]
      split
      · rfl
      · exact h
    | unregistered a b =>
      simp only [List.foldl_cons, List.foldl_nil]
      rw [if_neg]
      · exact h
      · rintro ⟨rfl, rfl⟩; exact hn (by simp)
    | _ => exact h

theorem Removed.mem_listed {env : Env} {i : Nat} {p : Answer → Bool} {c c' : Core} {evs : List Event}
    (h : Removed env i p c c' evs) {n : Bytes} {t : Nat} {b : Answer} (m : b ∈ c'.listed n t) : b ∈ c.listed n t := by
  rw [h.listed] at m
  exact (List.mem_filter.mp m).1

/-- One more answer in a response. -/
theorem Answered.hears {env : Env} {d : D Ptrs} {m : Msg} {src : Addr} {pre : List Resource} {a : Resource}
    (h : Answered env d m src pre a) (now : TV) :
    ∃ d1 d2 evs, step env (.recv now { m with an := pre } src) d = .ok (.unit, d1) ∧
      step env (.recv now { m with an := pre ++ [a] } src) d = .ok (.unit, d2) ∧ d2.c.log = d1.c.log ++ evs ∧
      (∀ b ∈ answersOf evs, b.ttl = 0 ∨ (a.ttl ≠ 0 ∧ carries a b = true ∧ b.ttl = now.sec + a.ttl / 2 + 8)) ∧
      ∀ n t, t ≠ 255 → (callback d1.c.log n t).isSome → Event.unregistered n t ∉ evs →
        (∀ b ∈ d2.c.listed n t, (∃ b0 ∈ d1.c.listed n t, SameRec b0 b) ∨ Told d1.c.log evs n t (fun b' => SameRec b b' ∧ b'.ttl ≠ 0)) ∧
        (a.name = n → a.type = t → a.ttl ≠ 0 → (∃ b ∈ d1.c.listed n t, carries a b = true) ∨
          Told d1.c.log evs n t (fun b => carries a b = true ∧ b.ttl = now.sec + a.ttl / 2 + 8)) := by
  obtain ⟨d1, d2, c0, e1, e2, r1, r2, hn, hcl, hb, hc⟩ := h.split now
  have hwa : a.WF := h.wf a (by simp)
  obtain ⟨c1, c', ev1, ev2, e3, hc3, s1, s2, fl, en⟩ := hb.inv.cacheIn env hwa src
  rw [hc] at e3
  cases e3
  have hl0 := listed_congr hb.frame.cache
  obtain ⟨qev, hlog, hq, hqa, hqc⟩ := hb.log
  have hl1 : c1.log = d1.c.log ++ (qev ++ ev1) := by rw [s1.log, hlog]; simp
  have hcar : carries a (Core.newEntry a src (c1.expiry a)) = true := by
    rw [← carries_eq hwa, hit_iff hwa src (c1.expiry a)]
    exact SameRec.refl _
  have hexp : (Core.newEntry a src (c1.expiry a)).ttl = now.sec + a.ttl / 2 + 8 := by
    rw [newEntry_ttl]
    unfold Core.expiry
    rw [s1.now, hb.now, hn]
  refine ⟨d1, d2, qev ++ (ev1 ++ ev2), e1, e2, by rw [hc3.log, hlog]; simp, ?_, ?_⟩
  · intro b mb
    rw [answersOf_append, answersOf_append, hqa, List.nil_append] at mb
    rcases List.mem_append.mp mb with mb | mb
    · cases fl with
      | no => cases mb
      | yes _ rem =>
        obtain ⟨b', _, rfl, _⟩ := (rem.answers hb.inv).1 b mb
        exact .inl rfl
    · cases en with
      | goodbye _ _ rem =>
        obtain ⟨b', _, rfl, _⟩ := (rem.answers s1.inv).1 b mb
        exact .inl rfl
      | nothing => cases mb
      | insert ht ins =>
        cases ins with
        | refresh => cases mb
        | silent => cases mb
        | told q cb rest _ _ _ _ h3 =>
          have mb : b ∈ Core.newEntry a src (c1.expiry a) :: answersOf rest := mb
          rw [h3, List.mem_singleton] at mb
          subst mb
          exact .inr ⟨ht, hcar, hexp⟩
  · intro n t ht255 hreg hun
    have hun1 : Event.unregistered n t ∉ qev ++ ev1 := fun mm => hun (by
      rcases List.mem_append.mp mm with mm | mm <;> simp [mm])
    -- flushing only removes
    have hfl : ∀ b ∈ c1.listed n t, b ∈ d1.c.listed n t := by
      intro b mb
      rw [← hl0]
      cases fl with
      | no _ heq => subst heq; exact mb
      | yes _ rem => exact rem.mem_listed mb
    cases en with
    | goodbye h0 _ rem =>
      exact ⟨fun b mb => .inl ⟨b, hfl b (rem.mem_listed mb), .refl b⟩, fun _ _ h => absurd h0 h⟩
    | nothing h0 _ heq =>
      subst heq
      exact ⟨fun b mb => .inl ⟨b, hfl b mb, .refl b⟩, fun _ _ h => absurd h0 h⟩
    | insert ht ins =>
      have hnew : c1.rrs (bucket a.name lprime) = c1.rrs (bucket a.name lprime) → 
          d2.c.rrs (bucket a.name lprime) = Core.newEntry a src (c1.expiry a) :: c1.rrs (bucket a.name lprime) →
          (∀ j, j ≠ bucket a.name lprime → d2.c.rrs j = c1.rrs j) → ∀ b ∈ d2.c.listed n t,
          b ∈ c1.listed n t ∨ (b = Core.newEntry a src (c1.expiry a) ∧ a.name = n ∧ a.type = t) := by
        intro _ h1 h2 b mb
        rw [listed_eq, List.mem_filter] at mb
        by_cases hbk : bucket n lprime = bucket a.name lprime
        · rw [hbk, h1] at mb
          rcases List.mem_cons.mp mb.1 with e | mb1
          · right
            have hi := (is_iff _ _ _).mp mb.2
            rw [e, newEntry_name] at hi
            refine ⟨e, hi.1, ?_⟩
            have := hi.2
            unfold typeFits at this
            rw [newEntry_type] at this
            rcases this with h | h
            · exact h.symm
            · exact absurd h ht255
          · left
            rw [listed_eq, List.mem_filter, hbk]
            exact ⟨mb1, mb.2⟩
        · rw [h2 _ hbk] at mb
          left
          rw [listed_eq, List.mem_filter]
          exact mb
      cases ins with
      | refresh hyes heq =>
        have hmap : ∀ b ∈ d2.c.listed n t, ∃ b0 ∈ c1.listed n t, SameRec b0 b := by
          intro b mb
          have : d2.c.listed n t = (c1.listed n t).map (refreshed a (c1.expiry a)) := by
            rw [heq]
            refine listed_map s1.inv (r := a) ?_ (fun j hj => setChain_other _ _ _ hj) n t
            rw [setChain_rrs, Core.rrs, List.map_map, List.map_map]
            apply List.map_congr_left
            intro e _
            simp only [Function.comp, refreshed, carries_eq hwa]
            split <;> rfl
          rw [this] at mb
          obtain ⟨b0, m0, rfl⟩ := List.mem_map.mp mb
          refine ⟨b0, m0, ?_⟩
          unfold refreshed
          split
          · exact SameRec.setTtl (t := b0.ttl).mpr (.refl b0)
          · exact .refl b0
        refine ⟨fun b mb => ?_, fun en et _ => .inl ?_⟩
        · obtain ⟨b0, m0, hs⟩ := hmap b mb
          exact .inl ⟨b0, hfl b0 m0, hs⟩
        · obtain ⟨b, mb, hcb⟩ := (any_hit hwa).mp hyes
          rw [en, et] at mb
          exact ⟨b, hfl b mb, hcb⟩
      | silent hno hcb heq =>
        have hnot : ¬ (a.name = n ∧ a.type = t) := by
          rintro ⟨rfl, rfl⟩
          have := callback_stays (qev ++ ev1) hun1 hreg
          rw [← hl1, hcb] at this
          cases this
        refine ⟨fun b mb => ?_, fun en et _ => absurd ⟨en, et⟩ hnot⟩
        rcases hnew rfl (by rw [heq, setChain_rrs]; rfl) (fun j hj => by rw [heq, setChain_other _ _ _ hj]) b mb with k | k
        · exact .inl ⟨b, hfl b k, .refl b⟩
        · exact absurd k.2 hnot
      | told q cb rest _ hcb h1 h2 h3 _ _ =>
        have told : a.name = n → a.type = t → Told d1.c.log
            (qev ++ (ev1 ++ .answer q cb (Core.newEntry a src (c1.expiry a)) :: rest)) n t
            (fun b => b = Core.newEntry a src (c1.expiry a)) := by
          rintro rfl rfl
          exact ⟨qev ++ ev1, q, cb, _, rest, by simp, by rw [← hl1]; exact hcb, rfl⟩
        refine ⟨fun b mb => ?_, fun en et _ => .inr ((told en et).imp ?_)⟩
        · rcases hnew rfl h1 h2 b mb with k | ⟨rfl, en, et⟩
          · exact .inl ⟨b, hfl b k, .refl b⟩
          · exact .inr ((told en et).imp (fun b' e => ⟨e ▸ .refl _, by rw [e, hexp]; omega⟩))
        · rintro b rfl
          exact ⟨hcar, hexp⟩

/-- A response arrives from elsewhere. -/
structure Response (env : Env) (d : D Ptrs) (m : Msg) (src : Addr) : Prop where
  reach : Reach env d
  up : d.c.shutdown = false
  resp : m.header.qr = true
  src : Elsewhere env d.c src
  wf : ∀ r ∈ m.an, r.WF

/-- What the queries hear of a response. -/
theorem Response.hears {env : Env} {d : D Ptrs} {m : Msg} {src : Addr} (h : Response env d m src) (now : TV) :
    ∃ d' evs, step env (.recv now m src) d = .ok (.unit, d') ∧ d'.c.log = d.c.log ++ evs ∧
      (∀ b ∈ answersOf evs, b.ttl = 0 ∨ ∃ a ∈ m.an, a.ttl ≠ 0 ∧ carries a b = true ∧ b.ttl = now.sec + a.ttl / 2 + 8) ∧
      ∀ n t, t ≠ 255 → (callback d.c.log n t).isSome → Event.unregistered n t ∉ evs →
        ∀ a ∈ m.an, a.name = n → a.type = t → a.ttl ≠ 0 → (∀ b ∈ d.c.listed n t, carries a b = false) →
          Told d.c.log evs n t (fun b => carries a b = true ∧ b.ttl ≠ 0) := by
  obtain ⟨hreach, hup, hresp, hsrc, hwf⟩ := h
  suffices H : ∀ (n : Nat) (as : List Resource), as.length = n → (∀ r ∈ as, r.WF) → ∃ d' evs,
      step env (.recv now { m with an := as } src) d = .ok (.unit, d') ∧ d'.c.log = d.c.log ++ evs ∧
      (∀ b ∈ answersOf evs, b.ttl = 0 ∨ ∃ a ∈ as, a.ttl ≠ 0 ∧ carries a b = true ∧ b.ttl = now.sec + a.ttl / 2 + 8) ∧
      ∀ n t, t ≠ 255 → (callback d.c.log n t).isSome → Event.unregistered n t ∉ evs →
        (∀ b ∈ d'.c.listed n t, (∃ b0 ∈ d.c.listed n t, SameRec b0 b) ∨ Told d.c.log evs n t (fun b' => SameRec b b' ∧ b'.ttl ≠ 0)) ∧
        ∀ a ∈ as, a.name = n → a.type = t → a.ttl ≠ 0 → (∀ b ∈ d.c.listed n t, carries a b = false) →
          Told d.c.log evs n t (fun b => carries a b = true ∧ b.ttl ≠ 0) by
    obtain ⟨d', evs, e, h1, h2, h3⟩ := H _ m.an rfl hwf
    exact ⟨d', evs, e, h1, h2, fun n t ht hr hu => (h3 n t ht hr hu).2⟩
  intro k
  induction k with
  | zero =>
    intro as hk _
    obtain rfl := List.eq_nil_of_length_eq_zero hk
    obtain ⟨l, hr⟩ := hreach.rep
    obtain ⟨c1, i1, s1, fr, hm⟩ := inMsg_start (now := now) hr.inv hup (hsrc.foreign hreach)
    have k1 : step env (.recv now { m with an := [] } src) (⟨d.c, l⟩ : D Lists) = .ok (.unit, ⟨c1, l⟩) := by
      show (inMsg env now { m with an := [] } src >>= fun _ => (pure .unit : M Lists OpOut)) ⟨d.c, l⟩ = _
      have e := hm { m with an := [] } hresp
      have e' : inMsg env now { m with an := [] } src ⟨d.c, l⟩ = .ok (0, ⟨c1, l⟩) := by rw [e]; rfl
      rw [M.bind_ok e']
      rfl
    obtain ⟨q1, f1⟩ := hr.call k1
    obtain ⟨evs, hlog, hq⟩ := fr.log
    refine ⟨_, evs, f1, hlog, ?_, fun n t _ _ _ => ⟨fun b mb => .inl ⟨b, ?_, .refl b⟩, fun a ma => by cases ma⟩⟩
    · intro b mb
      exfalso
      unfold answersOf at mb
      obtain ⟨ev, mev, he⟩ := List.mem_filterMap.mp mb
      have := hq ev mev
      cases ev <;> first | (cases he; done) | exact this.elim | (simp [Event.quiet] at this)
    · rw [← listed_congr fr.cache]; exact mb
  | succ k ih =>
    intro as hk hwas
    have hne : as ≠ [] := by intro e; rw [e] at hk; simp at hk
    obtain ⟨pre, a, rfl⟩ : ∃ pre a, as = pre ++ [a] := ⟨as.dropLast, as.getLast hne, (List.dropLast_concat_getLast hne).symm⟩
    have hpre : pre.length = k := by simp at hk; omega
    obtain ⟨d1, evs1, e1, l1, t1, r1⟩ := ih pre hpre (fun r mr => hwas r (by simp [mr]))
    obtain ⟨d1', d2, evs2, e1', e2, l2, t2, r2⟩ := Answered.hears ⟨hreach, hup, hresp, hsrc, hwas⟩ now (a := a) (pre := pre)
    rw [e1] at e1'
    cases e1'
    refine ⟨d2, evs1 ++ evs2, e2, by rw [l2, l1, List.append_assoc], ?_, ?_⟩
    · intro b mb
      rw [answersOf_append] at mb
      rcases List.mem_append.mp mb with mb | mb
      · rcases t1 b mb with h | ⟨a', ma, h⟩
        · exact .inl h
        · exact .inr ⟨a', by simp [ma], h⟩
      · rcases t2 b mb with h | h
        · exact .inl h
        · exact .inr ⟨a, by simp, h⟩
    · intro n t ht hreg hun
      have hu1 : Event.unregistered n t ∉ evs1 := fun mm => hun (by simp [mm])
      have hu2 : Event.unregistered n t ∉ evs2 := fun mm => hun (by simp [mm])
      obtain ⟨A1, B1⟩ := r1 n t ht hreg hu1
      have hreg1 : (callback d1.c.log n t).isSome := by rw [l1]; exact callback_stays evs1 hu1 hreg
      obtain ⟨A2, B2⟩ := r2 n t ht hreg1 hu2
      rw [l1] at A2 B2
      refine ⟨fun b mb => ?_, fun a' ma' en et h0 hnone => ?_⟩
      · rcases A2 b mb with ⟨b0, m0, hs⟩ | hT
        · rcases A1 b0 m0 with ⟨b1, m1, hs1⟩ | hT
          · exact .inl ⟨b1, m1, hs1.trans hs⟩
          · exact .inr ((hT.imp (fun b' hb' => ⟨hs.symm.trans hb'.1, hb'.2⟩)).after)
        · exact .inr hT.before
      · rcases List.mem_append.mp ma' with ma' | ma'
        · exact (B1 a' ma' en et h0 hnone).after
        · rw [List.mem_singleton] at ma'
          subst ma'
          have hwa := hwas a' (by simp)
          rcases B2 en et h0 with ⟨b, mb, hcb⟩ | hT
          · rcases A1 b mb with ⟨b0, m0, hs⟩ | hT
            · exfalso
              have := hnone b0 m0
              rw [← carries_eq hwa] at this hcb
              rw [hit_iff hwa src 0] at hcb
              have : hit a' b0 = true := (hit_iff hwa src 0 b0).mpr (hcb.trans hs.symm)
              simp_all
            · refine (hT.imp (fun b' hb' => ?_)).after
              refine ⟨?_, hb'.2⟩
              rw [← carries_eq hwa, hit_iff hwa src 0] at hcb ⊢
              exact hcb.trans hb'.1
          · exact (hT.imp (fun _ h => ⟨h.1, by rw [h.2]; omega⟩)).before

end Mdns
