import Verif.Lemmas.Hearing

/-!
# A response with goodbyes, answer by answer

What leaves the cache while the answers of one packet are handled, and who is told.
-/

namespace Mdns

/-- `_cache` in two parts, with the state between them. -/
theorem CInv.cacheIn_mid {c : Core} (h : CInv c) (env : Env) {r : Resource} (hr : r.WF) (src : Addr) :
    ∃ c1 c' ev1 ev2, c.cacheIn env r src = .ok c' ∧ Cbs c c' (ev1 ++ ev2) ∧ Cbs c c1 ev1 ∧ Cbs c1 c' ev2 ∧
      Flushed env r c c1 ev1 ∧ Entered env r src c1 c' ev2 ∧ CSteps env (fun _ _ _ => False) c c1 := by
  have hfl : ∃ c1 ev1, c.flush env r = .ok c1 ∧ Cbs c c1 ev1 ∧ Flushed env r c c1 ev1 := by
    rw [Core.flush_eq]
    by_cases hc : r.cls = 32768 + c.cls
    · obtain ⟨c1, ev1, e, hz⟩ := h.zap env (bucket r.name lprime) fun a => a.is r.name r.type
      exact ⟨c1, ev1, by rw [if_pos hc]; exact e, hz.cbs, .yes hc hz⟩
    · exact ⟨c, [], by rw [if_neg hc], .refl h, .no hc rfl⟩
  obtain ⟨c1, ev1, e1, s1, f1⟩ := hfl
  have hst : CSteps env (fun _ _ _ => False) c c1 := by
    rw [Core.flush_eq] at e1
    split at e1
    · obtain ⟨n, h1⟩ := (h.zeroed _ _).cExpire_steps e1
      exact (zeroed_steps h env _ _).trans n
    · cases e1
      exact .refl _
  have he : ∃ c' ev2, (if r.ttl = 0 then Core.deleteF env r (bucket r.name lprime) ((c1.chain r.name).length + 1) c1
      else c1.insert env r src) = .ok c' ∧ Cbs c1 c' ev2 ∧ Entered env r src c1 c' ev2 := by
    by_cases ht : r.ttl = 0
    · obtain ⟨c', ev2, e2, hd⟩ := s1.inv.delete' env hr
      rcases hd with ⟨ha, hz⟩ | ⟨ha, rfl, rfl⟩
      · exact ⟨c', ev2, by rw [if_pos ht]; exact e2, hz.cbs, .goodbye ht ha hz⟩
      · exact ⟨c', [], by rw [if_pos ht]; exact e2, .refl s1.inv, .nothing ht ha rfl⟩
    · obtain ⟨c', ev2, e2, s2, i2⟩ := s1.inv.insert env hr src
      exact ⟨c', ev2, by rw [if_neg ht]; exact e2, s2, .insert ht i2⟩
  obtain ⟨c', ev2, e2, s2, f2⟩ := he
  refine ⟨c1, c', ev1, ev2, ?_, s1.trans h s2, s1, s2, f1, f2, hst⟩
  unfold Core.cacheIn
  rw [e1]
  exact e2

theorem carries_type {r : Resource} {a : Answer} (h : carries r a = true) : a.type = r.type := by
  unfold carries at h
  simp only [Bool.and_eq_true, beq_iff_eq] at h
  exact h.1.2

theorem carries_same {r : Resource} (hr : r.WF) {a b : Answer} (hs : SameRec a b) : carries r a = carries r b := by
  have s : Addr := ⟨.v4 ip4Zero, 0⟩
  rw [Bool.eq_iff_iff, ← carries_eq hr, ← carries_eq hr, hit_iff hr s 0, hit_iff hr s 0]
  exact ⟨fun h => h.trans hs, fun h => h.trans hs.symm⟩

/-- A record that is listed either stays or its end is told. -/
theorem Removed.lost {env : Env} {i : Nat} {p : Answer → Bool} {c c' : Core} {evs : List Event}
    (h : Removed env i p c c' evs) (hi : CInv c) (hl : Linked c) {b : Answer} {n : Bytes} {t : Nat}
    (m : b ∈ c.listed n t) (hcb : (callback c.log b.name b.type).isSome) (hu : Event.unregistered b.name 255 ∉ c.log)
    (hk : env.KeepBut { b with ttl := 0 }) : b ∈ c'.listed n t ∨ { b with ttl := 0 } ∈ answersOf evs := by
  by_cases hs : b ∈ c'.listed n t
  · exact .inl hs
  · right
    rw [h.listed, List.mem_filter] at hs
    obtain ⟨e, he, rfl, hq⟩ := hl.asked hi m hcb hu
    by_cases hb : bucket n lprime = i
    · rw [if_pos hb] at hs
      refine h.told e (hb ▸ he) ?_ hq hk
      cases h1 : c.live e.rr <;> cases h2 : p e.rr <;> simp_all
    · rw [if_neg hb] at hs
      exact absurd ⟨m, rfl⟩ hs

/-- One more answer in a response, for the record in `g`. -/
theorem Answered.loses {env : Env} {d : D Ptrs} {m : Msg} {src : Addr} {pre : List Resource} {a : Resource}
    (h : Answered env d m src pre a) (now : TV) {g : Resource} (hg : g.WF) :
    ∃ d1 d2 evs, step env (.recv now { m with an := pre } src) d = .ok (.unit, d1) ∧
      step env (.recv now { m with an := pre ++ [a] } src) d = .ok (.unit, d2) ∧ d2.c.log = d1.c.log ++ evs ∧
      (a = g → g.ttl = 0 → ∀ n t, ∀ b ∈ d2.c.listed n t, carries g b = false) ∧
      ((a.ttl = 0 ∨ ∀ b, carries g b = true → carries a b = false) →
        ((∀ n t, ∀ b ∈ d1.c.listed n t, carries g b = false) → ∀ n t, ∀ b ∈ d2.c.listed n t, carries g b = false) ∧
        ∀ b ∈ d1.c.listed g.name g.type, carries g b = true → (callback d1.c.log g.name g.type).isSome →
          Event.unregistered g.name 255 ∉ d2.c.log → env.KeepBut { b with ttl := 0 } →
          Event.unregistered g.name g.type ∈ evs ∨ b ∈ d2.c.listed g.name g.type ∨ { b with ttl := 0 } ∈ answersOf evs) := by
  obtain ⟨d1, d2, c0, e1, e2, r1, r2, hn, hcl, hb, hc⟩ := h.split now
  have hwa : a.WF := h.wf a (by simp)
  obtain ⟨c1, c', ev1, ev2, e3, hc3, s1, s2, fl, en, hst⟩ := hb.inv.cacheIn_mid env hwa src
  rw [hc] at e3
  cases e3
  have hl0 := listed_congr hb.frame.cache
  obtain ⟨qev, hlog, hq, hqa, hqc⟩ := hb.log
  have hl1 : c1.log = d1.c.log ++ (qev ++ ev1) := by rw [s1.log, hlog]; simp
  have hl2 : d2.c.log = d1.c.log ++ (qev ++ (ev1 ++ ev2)) := by rw [hc3.log, hlog]; simp
  have hk0 : Linked c0 := r1.linked.step (FStep.frame hb.frame)
  have hk1 : Linked c1 := hst.fine.keep (fun _ _ p n => p.step n) hk0
  -- flushing only removes
  have hfl : ∀ n t, ∀ b ∈ c1.listed n t, b ∈ d1.c.listed n t := by
    intro n t b mb
    rw [← hl0]
    cases fl with
    | no _ heq => subst heq; exact mb
    | yes _ rem => exact rem.mem_listed mb
  refine ⟨d1, d2, qev ++ (ev1 ++ ev2), e1, e2, hl2, ?_, fun hor => ⟨fun hnone n t b mb => ?_, fun b mb hcar hcb hu hk => ?_⟩⟩
  · rintro rfl h0 n t b mb
    cases en with
    | insert ht => exact absurd h0 ht
    | nothing _ hno heq =>
      subst heq
      cases hcar : carries a b with
      | false => rfl
      | true =>
        refine absurd ⟨b, ?_, hcar⟩ ((any_hit_false hwa).mp hno)
        rw [mem_listed s1.inv] at mb ⊢
        exact ⟨mb.1, carries_name hcar, .inl (carries_type hcar).symm⟩
    | goodbye _ _ rem =>
      rw [hit_carries hwa] at rem
      rw [rem.listed, List.mem_filter] at mb
      cases hcar : carries a b with
      | false => rfl
      | true =>
        have hb' : bucket n lprime = bucket a.name lprime := by
          have hm := (mem_listed s1.inv).mp mb.1
          rw [← hm.2.1, carries_name hcar]
        have := mb.2
        rw [if_pos hb', hcar] at this
        simp at this
  · have hnone' : ∀ n t, ∀ b ∈ c1.listed n t, carries g b = false := fun n t b mb => hnone n t b (hfl n t b mb)
    cases en with
    | goodbye _ _ rem => exact hnone' n t b (rem.mem_listed mb)
    | nothing _ _ heq => subst heq; exact hnone' n t b mb
    | insert ht ins =>
      have hno := hor.resolve_left ht
      have hcar : carries a (Core.newEntry a src (c1.expiry a)) = true := by
        rw [← carries_eq hwa, hit_iff hwa src (c1.expiry a)]
        exact SameRec.refl _
      have hnew : d2.c.rrs (bucket a.name lprime) = Core.newEntry a src (c1.expiry a) :: c1.rrs (bucket a.name lprime) →
          (∀ j, j ≠ bucket a.name lprime → d2.c.rrs j = c1.rrs j) → carries g b = false := by
        intro h1 h2
        rw [listed_eq, List.mem_filter] at mb
        by_cases hbk : bucket n lprime = bucket a.name lprime
        · rw [hbk, h1] at mb
          rcases List.mem_cons.mp mb.1 with rfl | mb1
          · rw [Bool.eq_false_iff]
            intro hx
            rw [hno _ hx] at hcar
            cases hcar
          · exact hnone' n t b (by rw [listed_eq, List.mem_filter, hbk]; exact ⟨mb1, mb.2⟩)
        · rw [h2 _ hbk] at mb
          exact hnone' n t b (by rw [listed_eq, List.mem_filter]; exact mb)
      cases ins with
      | refresh _ heq =>
        have : d2.c.listed n t = (c1.listed n t).map (refreshed a (c1.expiry a)) := by
          rw [heq]
          refine listed_map s1.inv (r := a) ?_ (fun j hj => setChain_other _ _ _ hj) n t
          rw [setChain_rrs, Core.rrs, List.map_map, List.map_map]
          apply List.map_congr_left
          intro e _
          simp only [Function.comp, refreshed, carries_eq hwa]
          split <;> rfl
        rw [this] at mb
        obtain ⟨b0, m0, rfl⟩ := List.mem_map.mp mb
        rw [← hnone' n t b0 m0]
        refine (carries_same hg ?_).symm
        unfold refreshed
        split
        · exact SameRec.setTtl (t := b0.ttl).mpr (.refl b0)
        · exact .refl b0
      | silent _ _ heq => exact hnew (by rw [heq, setChain_rrs]; rfl) fun j hj => by rw [heq, setChain_other _ _ _ hj]
      | told _ _ _ _ _ h1 h2 => exact hnew h1 h2
  · by_cases hun : Event.unregistered g.name g.type ∈ qev ++ (ev1 ++ ev2)
    · exact .inl hun
    right
    rw [answersOf_append, answersOf_append, hqa, List.nil_append]
    have hbn := carries_name hcar
    have hbt := carries_type hcar
    have hu0 : Event.unregistered b.name 255 ∉ c0.log := by
      rw [hbn]
      intro mm
      exact hu (by rw [hc3.log]; simp [mm])
    have hu1 : Event.unregistered b.name 255 ∉ c1.log := by
      rw [hbn]
      intro mm
      exact hu (by rw [s2.log]; simp [mm])
    have hcb0 : (callback c0.log b.name b.type).isSome := by
      rw [hbn, hbt, hlog]
      exact callback_stays qev (fun mm => hun (by simp [mm])) hcb
    have hcb1 : (callback c1.log b.name b.type).isSome := by
      rw [hbn, hbt, hl1]
      exact callback_stays (qev ++ ev1) (fun mm => hun (by
        rcases List.mem_append.mp mm with mm | mm <;> simp [mm])) hcb
    rw [← hl0] at mb
    have h1 : b ∈ c1.listed g.name g.type ∨ { b with ttl := 0 } ∈ answersOf ev1 := by
      cases fl with
      | no _ heq => subst heq; exact .inl mb
      | yes _ rem => exact rem.lost hb.inv hk0 mb hcb0 hu0 hk
    rcases h1 with mb1 | h1
    · have h2 : b ∈ d2.c.listed g.name g.type ∨ { b with ttl := 0 } ∈ answersOf ev2 := by
        cases en with
        | goodbye _ _ rem => exact rem.lost s1.inv hk1 mb1 hcb1 hu1 hk
        | nothing _ _ heq => subst heq; exact .inl mb1
        | insert ht ins =>
          have hno := hor.resolve_left ht _ hcar
          left
          have hnew : d2.c.rrs (bucket a.name lprime) = Core.newEntry a src (c1.expiry a) :: c1.rrs (bucket a.name lprime) →
              (∀ j, j ≠ bucket a.name lprime → d2.c.rrs j = c1.rrs j) → b ∈ d2.c.listed g.name g.type := by
            intro h1 h2
            rw [listed_eq, List.mem_filter] at mb1 ⊢
            by_cases hbk : bucket g.name lprime = bucket a.name lprime
            · rw [hbk] at mb1 ⊢
              rw [h1]
              exact ⟨List.mem_cons_of_mem _ mb1.1, mb1.2⟩
            · rw [h2 _ hbk]
              exact mb1
          cases ins with
          | refresh _ heq =>
            have : d2.c.listed g.name g.type = (c1.listed g.name g.type).map (refreshed a (c1.expiry a)) := by
              rw [heq]
              refine listed_map s1.inv (r := a) ?_ (fun j hj => setChain_other _ _ _ hj) _ _
              rw [setChain_rrs, Core.rrs, List.map_map, List.map_map]
              apply List.map_congr_left
              intro e _
              simp only [Function.comp, refreshed, carries_eq hwa]
              split <;> rfl
            rw [this]
            refine List.mem_map.mpr ⟨b, mb1, ?_⟩
            unfold refreshed
            rw [hno]
            rfl
          | silent _ _ heq => exact hnew (by rw [heq, setChain_rrs]; rfl) fun j hj => by rw [heq, setChain_other _ _ _ hj]
          | told _ _ _ _ _ h1 h2 => exact hnew h1 h2
      rcases h2 with h2 | h2
      · exact .inl h2
      · exact .inr (by simp [h2])
    · exact .inr (by simp [h1])

/-- A response with a goodbye. -/
theorem Response.loses {env : Env} {d : D Ptrs} {m : Msg} {src : Addr} (h : Response env d m src) (now : TV) {g : Resource}
    (mg : g ∈ m.an) (h0 : g.ttl = 0) (hno : ∀ a ∈ m.an, a.ttl ≠ 0 → ∀ b, carries g b = true → carries a b = false) :
    ∃ d' evs, step env (.recv now m src) d = .ok (.unit, d') ∧ d'.c.log = d.c.log ++ evs ∧
      (∀ n t, ∀ b ∈ d'.c.listed n t, carries g b = false) ∧
      ∀ b ∈ d.c.listed g.name g.type, carries g b = true → (callback d.c.log g.name g.type).isSome →
        Event.unregistered g.name 255 ∉ d'.c.log → env.KeepBut { b with ttl := 0 } →
        Event.unregistered g.name g.type ∈ evs ∨ { b with ttl := 0 } ∈ answersOf evs := by
  obtain ⟨hreach, hup, hresp, hsrc, hwf⟩ := h
  have hg : g.WF := hwf g mg
  suffices H : ∀ (n : Nat) (as : List Resource), as.length = n → (∀ r ∈ as, r.WF) →
      (∀ a ∈ as, a.ttl ≠ 0 → ∀ b, carries g b = true → carries a b = false) → ∃ d' evs,
      step env (.recv now { m with an := as } src) d = .ok (.unit, d') ∧ d'.c.log = d.c.log ++ evs ∧
      (g ∈ as → ∀ n t, ∀ b ∈ d'.c.listed n t, carries g b = false) ∧
      ∀ b ∈ d.c.listed g.name g.type, carries g b = true → (callback d.c.log g.name g.type).isSome →
        Event.unregistered g.name 255 ∉ d'.c.log → env.KeepBut { b with ttl := 0 } →
        Event.unregistered g.name g.type ∈ evs ∨ b ∈ d'.c.listed g.name g.type ∨ { b with ttl := 0 } ∈ answersOf evs by
    obtain ⟨d', evs, e, h1, h2, h3⟩ := H _ m.an rfl hwf hno
    refine ⟨d', evs, e, h1, h2 mg, fun b mb hcar hcb hu hk => ?_⟩
    rcases h3 b mb hcar hcb hu hk with h | h | h
    · exact .inl h
    · rw [h2 mg _ _ b h] at hcar
      cases hcar
    · exact .inr h
  intro k
  induction k with
  | zero =>
    intro as hk _ _
    obtain rfl := List.eq_nil_of_length_eq_zero hk
    obtain ⟨l, hr⟩ := hreach.rep
    obtain ⟨c1, i1, s1, fr, hm⟩ := inMsg_start (now := now) hr.inv hup (hsrc.foreign hreach)
    have k1 : step env (.recv now { m with an := [] } src) (⟨d.c, l⟩ : D Lists) = .ok (.unit, ⟨c1, l⟩) := by
      show (inMsg env now { m with an := [] } src >>= fun _ => (pure .unit : M Lists OpOut)) ⟨d.c, l⟩ = _
      have e := hm { m with an := [] } hresp
      have e' : inMsg env now { m with an := [] } src ⟨d.c, l⟩ = .ok (0, ⟨c1, l⟩) := by rw [e]; rfl
      rw [M.bind_ok e']
      rfl
    obtain ⟨q1, f1⟩ := hr.call k1
    obtain ⟨evs, hlog, hq⟩ := fr.log
    refine ⟨_, evs, f1, hlog, fun m => absurd m (by simp), fun b mb _ _ _ _ => .inr (.inl ?_)⟩
    show b ∈ c1.listed _ _
    rw [listed_congr fr.cache]; exact mb
  | succ k ih =>
    intro as hk hwas hnas
    have hne : as ≠ [] := by intro e; rw [e] at hk; simp at hk
    obtain ⟨pre, a, rfl⟩ : ∃ pre a, as = pre ++ [a] := ⟨as.dropLast, as.getLast hne, (List.dropLast_concat_getLast hne).symm⟩
    have hpre : pre.length = k := by simp at hk; omega
    obtain ⟨d1, evs1, e1, l1, A1, B1⟩ := ih pre hpre (fun r mr => hwas r (by simp [mr])) (fun r mr => hnas r (by simp [mr]))
    obtain ⟨d1', d2, evs2, e1', e2, l2, A2, C2⟩ := Answered.loses ⟨hreach, hup, hresp, hsrc, hwas⟩ now (a := a) (pre := pre) hg
    rw [e1] at e1'
    cases e1'
    obtain ⟨C2, B2⟩ := C2 (by
      by_cases ha : a.ttl = 0
      · exact .inl ha
      · exact .inr (hnas a (by simp) ha))
    refine ⟨d2, evs1 ++ evs2, e2, by rw [l2, l1, List.append_assoc], ?_, ?_⟩
    · intro mg'
      by_cases ha : a = g
      · exact A2 ha h0
      · refine C2 (A1 ?_)
        rcases List.mem_append.mp mg' with h | h
        · exact h
        · rw [List.mem_singleton] at h
          exact absurd h.symm ha
    · intro b mb hcar hcb hu hk
      have hu1 : Event.unregistered g.name 255 ∉ d1.c.log := fun mm => hu (by rw [l2]; simp [mm])
      rcases B1 b mb hcar hcb hu1 hk with h | h | h
      · exact .inl (by simp [h])
      · by_cases hun : Event.unregistered g.name g.type ∈ evs1
        · exact .inl (by simp [hun])
        have hcb1 : (callback d1.c.log g.name g.type).isSome := by rw [l1]; exact callback_stays evs1 hun hcb
        rcases B2 b h hcar hcb1 hu hk with h | h | h
        · exact .inl (by simp [h])
        · exact .inr (.inl h)
        · exact .inr (.inr (by rw [answersOf_append]; simp [h]))
      · exact .inr (.inr (by rw [answersOf_append]; simp [h]))

end Mdns
