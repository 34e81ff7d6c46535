import Verif.Props.Cache

/-!
# C24, C25: who is told what
-/

namespace Mdns

/-! ### C24 -/

/-- C24, first half: in every history, each answer callback goes to a callback registered at that
moment for the name of the record and for its type or ANY. -/
theorem C24_answers_fit {env : Env} {d : D Ptrs} (h : Reach env d) : LogOk d.c.log := by
  obtain ⟨l, hr⟩ := h.rep
  exact hr.inv.cinv.tlog

theorem callback_keep {host : Bytes} {type : Nat} : ∀ (evs : List Event) {log : List Event}, NoEnd evs →
    (callback log host type).isSome → (callback (log ++ evs) host type).isSome
  | [], log, _, h => by rw [List.append_nil]; exact h
  | e :: evs, log, hn, h => by
    have : log ++ e :: evs = (log ++ [e]) ++ evs := by simp
    rw [this]
    refine callback_keep evs (fun a b m => hn a b (by simp [m])) ?_
    unfold callback at h ⊢
    rw [List.foldl_append]
    cases e with
    | registered a b cb =>
      simp only [List.foldl_cons, List.foldl_nil]
      split
      · rfl
      · exact h
    | unregistered a b => exact absurd (by simp) (hn a b)
    | _ => exact h

/-- C24, second half: an answer that is not in the cache yet (and does not end a record) enters
it with half its lifetime and 8 seconds, and is passed to the callback registered for its name
and type, exactly once; if there is none, no callback is made. -/
theorem C24_new_answer_reported {env : Env} {d : D Ptrs} {m : Msg} {src : Addr} {pre : List Resource} {a : Resource}
    (h : Answered env d m src pre a) (now : TV) (hf : a.cls ≠ 32768 + d.c.cls) (ht : a.ttl ≠ 0) :
    ∃ d1 d2 evs, step env (.recv now { m with an := pre } src) d = .ok (.unit, d1) ∧
      step env (.recv now { m with an := pre ++ [a] } src) d = .ok (.unit, d2) ∧ d2.c.log = d1.c.log ++ evs ∧
      ((∀ b ∈ d1.c.listed a.name a.type, carries a b = false) →
        ∃ b, carries a b = true ∧ b.ttl = now.sec + a.ttl / 2 + 8 ∧
          d2.c.listed a.name a.type = b :: d1.c.listed a.name a.type ∧
          (∀ host type, d2.c.listed host type =
            (if b.name = host ∧ (type = b.type ∨ type = 255) then [b] else []) ++ d1.c.listed host type) ∧
          (∀ cb, callback d1.c.log a.name a.type = some cb → answersOf evs = [b] ∧ ∃ q, .answer q cb b ∈ evs) ∧
          (callback d1.c.log a.name a.type = none → answersOf evs = [])) := by
  obtain ⟨d1, d2, c0, e1, e2, r1, r2, hn, hcl, hb, hc⟩ := h.split now
  have hwa : a.WF := h.wf a (by simp)
  obtain ⟨c1, c', ev1, ev2, e3, hc3, _, _, fl, en⟩ := hb.inv.cacheIn env hwa src
  rw [hc] at e3
  cases e3
  have hl0 := listed_congr hb.frame.cache
  obtain ⟨qev, hlog, hq, hqa, hqc⟩ := hb.log
  cases fl with
  | yes hcls _ => exact absurd (by rw [hcls, hb.cls, hcl]) hf
  | no _ heq =>
    subst heq
    refine ⟨d1, d2, qev ++ ev2, e1, e2, by rw [hc3.log, hlog]; simp, fun hnone => ?_⟩
    rw [answersOf_append, hqa, List.nil_append]
    have hno : (c1.rrs (bucket a.name lprime)).any (hit a) = false := by
      rw [any_hit_false hwa, hl0]
      rintro ⟨b, mb, hcb⟩
      rw [hnone b mb] at hcb
      cases hcb
    have hexp : c1.expiry a = now.sec + a.ttl / 2 + 8 := by
      unfold Core.expiry
      rw [hb.now, hn]
    have hcar : carries a (Core.newEntry a src (c1.expiry a)) = true := by
      rw [← carries_eq hwa, hit_iff hwa src (c1.expiry a)]
      exact SameRec.refl _
    -- the listings, from the chains
    have hlist : (d2.c.rrs (bucket a.name lprime) = Core.newEntry a src (c1.expiry a) :: c1.rrs (bucket a.name lprime)) →
        (∀ j, j ≠ bucket a.name lprime → d2.c.rrs j = c1.rrs j) → ∀ host type, d2.c.listed host type =
          (if (Core.newEntry a src (c1.expiry a)).name = host ∧
              (type = (Core.newEntry a src (c1.expiry a)).type ∨ type = 255) then
            [Core.newEntry a src (c1.expiry a)] else []) ++ d1.c.listed host type := by
      intro h1 h2 host type
      rw [← hl0, listed_eq, listed_eq]
      by_cases hbk : bucket host lprime = bucket a.name lprime
      · rw [hbk, h1, List.filter_cons]
        by_cases hi : (Core.newEntry a src (c1.expiry a)).is host type = true
        · rw [if_pos hi, if_pos (show _ ∧ (_ ∨ _) from (is_iff _ _ _).mp hi)]
          rfl
        · rw [if_neg hi, if_neg (show ¬ (_ ∧ (_ ∨ _)) from fun hh => hi ((is_iff _ _ _).mpr hh))]
          rfl
      · rw [h2 _ hbk, if_neg, List.nil_append]
        rw [newEntry_name]
        rintro ⟨rfl, _⟩
        exact hbk rfl
    have hself : ∀ (l : List Answer), (if (Core.newEntry a src (c1.expiry a)).name = a.name ∧
        (a.type = (Core.newEntry a src (c1.expiry a)).type ∨ a.type = 255) then
          [Core.newEntry a src (c1.expiry a)] else []) ++ l = Core.newEntry a src (c1.expiry a) :: l := by
      intro l
      rw [if_pos ⟨newEntry_name _ _ _, .inl (newEntry_type _ _ _).symm⟩]
      rfl
    cases en with
    | goodbye h0 _ _ => exact absurd h0 ht
    | nothing h0 _ _ => exact absurd h0 ht
    | insert _ ins =>
      refine ⟨Core.newEntry a src (c1.expiry a), hcar, by rw [newEntry_ttl, hexp], ?_⟩
      cases ins with
      | refresh hyes _ => rw [hno] at hyes; cases hyes
      | silent _ hcb heq =>
        have hl := hlist (by rw [heq, setChain_rrs]; rfl) (fun j hj => by rw [heq, setChain_other _ _ _ hj])
        refine ⟨by rw [hl, hself], hl, fun cb hcb' => ?_, fun _ => rfl⟩
        rw [← hqc, hcb] at hcb'
        cases hcb'
      | told q cb rest _ hcb h1 h2 h3 _ _ =>
        have hl := hlist h1 h2
        refine ⟨by rw [hl, hself], hl, fun cb' hcb' => ?_, fun hcb' => ?_⟩
        · rw [← hqc, hcb] at hcb'
          cases hcb'
          refine ⟨?_, q, by simp⟩
          show Core.newEntry a src (c1.expiry a) :: answersOf rest = _
          rw [h3]
        · rw [← hqc, hcb] at hcb'
          cases hcb'

/-- C24, second half, with the cache-flush bit: after the reports of the records that go away, the
new record is reported exactly once, to the query of its name and type, if the callbacks that
are told of records that go away do not return -1. -/
theorem C24_flush_answer_reported {env : Env} {d : D Ptrs} {m : Msg} {src : Addr} {pre : List Resource} {a : Resource}
    (h : Answered env d m src pre a) (now : TV) (hf : a.cls = 32768 + d.c.cls) (ht : a.ttl ≠ 0)
    (hk : env.KeepOnExpiry) :
    ∃ d1 d2, step env (.recv now { m with an := pre } src) d = .ok (.unit, d1) ∧
      step env (.recv now { m with an := pre ++ [a] } src) d = .ok (.unit, d2) ∧
      ((callback d1.c.log a.name a.type).isSome → ∃ b evs q cb rest, d2.c.listed a.name a.type = [b] ∧
        d2.c.log = d1.c.log ++ evs ++ .answer q cb b :: rest ∧
        callback (d1.c.log ++ evs) a.name a.type = some cb ∧
        (∀ x ∈ answersOf evs, x.ttl = 0) ∧ answersOf rest = []) := by
  obtain ⟨d1, d2, c0, e1, e2, r1, r2, hn, hcl, hb, hc⟩ := h.split now
  refine ⟨d1, d2, e1, e2, fun hsome => ?_⟩
  obtain ⟨d1', d2', e1', e2', _, hl, _, _⟩ := C21_flush_replaces_partial h now hf
  rw [e2] at e2'
  cases e2'
  obtain ⟨b, hl, hcar, hbt⟩ := hl ht
  have hwa : a.WF := h.wf a (by simp)
  obtain ⟨c1, c', ev1, ev2, e3, hc3, s1, s2, fl, en⟩ := hb.inv.cacheIn env hwa src
  rw [hc] at e3
  cases e3
  obtain ⟨qev, hlog, hq, hqa, hqc⟩ := hb.log
  cases fl with
  | no hcls _ => exact absurd (by rw [hf, hb.cls, hcl]) hcls
  | yes _ rem =>
    have hempty : c1.listed a.name a.type = [] := by
      rw [rem.listed, List.filter_eq_nil_iff]
      intro b mb
      rw [if_pos rfl]
      rw [listed_eq, List.mem_filter] at mb
      rw [mb.2]
      simp
    have hno : (c1.rrs (bucket a.name lprime)).any (hit a) = false := by
      rw [any_hit_false hwa, hempty]
      simp
    have hcb1 : (callback c1.log a.name a.type).isSome := by
      rw [s1.log]
      exact callback_keep ev1 (rem.keep hk) (by rw [hqc]; exact hsome)
    have hl1 : d1.c.log ++ (qev ++ ev1) = c1.log := by rw [s1.log, hlog]; simp
    cases en with
    | goodbye h0 _ _ => exact absurd h0 ht
    | nothing h0 _ _ => exact absurd h0 ht
    | insert _ ins =>
      cases ins with
      | refresh hyes _ => rw [hno] at hyes; cases hyes
      | silent _ hcb _ => rw [hcb] at hcb1; cases hcb1
      | told q cb rest _ hcb h1 h2 h3 _ _ =>
        have : b = Core.newEntry a src (c1.expiry a) := by
          have hm : Core.newEntry a src (c1.expiry a) ∈ d2.c.listed a.name a.type := by
            rw [listed_eq, List.mem_filter, h1, is_iff]
            exact ⟨by simp, newEntry_name _ _ _, .inl (newEntry_type _ _ _).symm⟩
          rw [hl, List.mem_singleton] at hm
          exact hm.symm
        subst this
        refine ⟨_, qev ++ ev1, q, cb, rest, hl, ?_, ?_, ?_, h3⟩
        · rw [s2.log, ← hl1]
        · rw [hl1]
          exact hcb
        · intro x mx
          rw [answersOf_append, hqa, List.nil_append] at mx
          obtain ⟨b', _, rfl, _⟩ := (rem.answers hb.inv).1 x mx
          rfl

/-! ### C25 -/

/-- Calls lead from one state to another. -/
inductive After (env : Env) (d : D Ptrs) : D Ptrs → Prop
  | refl : After env d d
  | step {d1 d2 : D Ptrs} {o : Op} {a : OpOut} (h : After env d d1) (hs : OpSafe env d1.c d1.q.walk o)
      (e : Mdns.step env o d1 = .ok (a, d2)) : After env d d2

theorem After.reach {env : Env} {d d' : D Ptrs} (h : After env d d') (hr : Reach env d) : Reach env d' := by
  induction h with
  | refl => exact hr
  | step _ hs e ih => exact ih.step hs e

theorem FStep.log {env : Env} {c c' : Core} (n : FStep env c c') : ∃ evs, c'.log = c.log ++ evs := by
  cases n with
  | frame h =>
    obtain ⟨evs, e, _⟩ := h.log
    exact ⟨evs, e⟩
  | call => exact ⟨_, rfl⟩
  | setCb => exact ⟨_, rfl⟩
  | newq => exact ⟨_, rfl⟩
  | endq h hx e =>
    obtain ⟨c1, e1, _, _, l1, _⟩ := h.qDone hx
    rw [e] at e1
    cases e1
    exact ⟨_, l1⟩
  | _ => exact ⟨[], (List.append_nil _).symm⟩

theorem FSteps.log {env : Env} {c c' : Core} (n : FSteps env c c') : ∃ evs, c'.log = c.log ++ evs := by
  induction n with
  | refl => exact ⟨[], by simp⟩
  | step s _ ih =>
    obtain ⟨e1, h1⟩ := s.log
    obtain ⟨e2, h2⟩ := ih
    exact ⟨e1 ++ e2, by rw [h2, h1, List.append_assoc]⟩

theorem After.log {env : Env} {d d' : D Ptrs} (h : After env d d') (hr : Reach env d) :
    ∃ evs, d'.c.log = d.c.log ++ evs := by
  induction h with
  | refl => exact ⟨[], by simp⟩
  | step h hs e ih =>
    obtain ⟨ev1, h1⟩ := ih
    obtain ⟨l, hrep⟩ := (h.reach hr).rep
    obtain ⟨a', d', l', e', n, _⟩ := hrep.step _ hs
    rw [e] at e'
    cases e'
    obtain ⟨ev2, h2⟩ := (n.steps hrep.inv).fine.log
    exact ⟨ev1 ++ ev2, by rw [h2, h1, List.append_assoc]⟩

/-- A callback is registered because it was registered before or in between. -/
theorem callback_since {host : Bytes} {type cb : Nat} : ∀ (evs : List Event) {log : List Event},
    callback (log ++ evs) host type = some cb → callback log host type = some cb ∨ .registered host type cb ∈ evs
  | [], log, h => by rw [List.append_nil] at h; exact .inl h
  | e :: evs, log, h => by
    have : log ++ e :: evs = (log ++ [e]) ++ evs := by simp
    rw [this] at h
    rcases callback_since evs h with h | h
    · unfold callback at h ⊢
      rw [List.foldl_append] at h
      cases e with
      | registered a b cb' =>
        simp only [List.foldl_cons, List.foldl_nil] at h
        split at h
        · rename_i hab
          simp only [Option.some.injEq] at h
          rw [hab.1, hab.2, h]
          exact .inr (by simp)
        · exact .inl h
      | unregistered a b =>
        simp only [List.foldl_cons, List.foldl_nil] at h
        split at h
        · cases h
        · exact .inl h
      | _ => exact .inl h
    · exact .inr (by simp [h])

/-- Once a callback is registered for nothing, it is not called unless it is registered again. -/
theorem no_call {pre post : List Event} {cb : Nat} (hl : LogOk (pre ++ post))
    (hc : ∀ n t, callback pre n t ≠ some cb) (hr : ∀ n t, Event.registered n t cb ∉ post) (q : Nat) (rr : Answer) :
    Event.answer q cb rr ∉ post := by
  intro m
  obtain ⟨a, b, rfl⟩ := List.append_of_mem m
  obtain ⟨t, _, h2⟩ := hl (pre ++ a) q cb rr b (by simp)
  rcases callback_since a h2 with h3 | h3
  · exact hc _ _ h3
  · exact hr _ _ (List.mem_append.mpr (.inl h3))

/-- C25: after `mdnsd_query` with NULL nothing is registered for that name and type, no cache
entry refers to the query, and from then on, whatever calls follow, its callback is not called
unless it is registered again (if it was not also registered for something else). -/
theorem C25_unregistered_is_final {env : Env} {d : D Ptrs} (h : Reach env d) (host : Bytes) (type : Nat) :
    ∃ d1, step env (.query host type none) d = .ok (.unit, d1) ∧ callback d1.c.log host type = none ∧
      (∀ i e q x, e ∈ d1.c.cache i → e.q = some q → d1.c.qs q = some x → ¬ (x.name = host ∧ x.type = type)) ∧
      ∀ cb d2, (∀ n t, callback d.c.log n t = some cb → n = host ∧ t = type) → After env d1 d2 →
        ∃ evs, d2.c.log = d1.c.log ++ evs ∧
          ((∀ n t, Event.registered n t cb ∉ evs) → ∀ q rr, Event.answer q cb rr ∉ evs) := by
  obtain ⟨l, hrep⟩ := h.rep
  obtain ⟨a, d1, l1, e1, n, hr1⟩ := hrep.step (env := env) (.query host type none) trivial
  cases n with
  | query e _ =>
    have hreach : Reach env d1 := h.step (o := .query host type none) trivial e1
    have hi := hrep.inv.cinv
    -- what is registered now
    have hcb : callback d1.c.log host type = none ∧
        ∀ n t cb, callback d1.c.log n t = some cb → callback d.c.log n t = some cb ∧ ¬ (n = host ∧ t = type) := by
      obtain ⟨o, h1, h2, h3⟩ := hi.qFind host type
      unfold Core.query at e
      rw [h1] at e
      cases o with
      | none =>
        simp only [Res.ok.injEq] at e
        rw [← e]
        have hnone : callback d.c.log host type = none := by
          cases hc : callback d.c.log host type with
          | none => rfl
          | some cb =>
            obtain ⟨q, x, hx, hn, ht, _⟩ := (hi.tcb _ _ _).mp hc
            exact absurd ⟨hn, ht⟩ (h3 rfl q x hx)
        refine ⟨hnone, fun n t cb hc => ⟨hc, ?_⟩⟩
        rintro ⟨rfl, rfl⟩
        rw [hnone] at hc
        cases hc
      | some q =>
        obtain ⟨x, hx, rfl, rfl⟩ := h2 q rfl
        obtain ⟨c2, e2, _, _, l2, _⟩ := hi.qDone hx
        dsimp only at e
        rw [e2] at e
        simp only [Res.ok.injEq] at e
        rw [← e, l2]
        refine ⟨by rw [callback_append_unregistered, if_pos ⟨rfl, rfl⟩], fun n t cb hc => ?_⟩
        rw [callback_append_unregistered] at hc
        split at hc
        · cases hc
        · rename_i hne
          exact ⟨hc, fun hh => hne ⟨hh.1.symm, hh.2.symm⟩⟩
    refine ⟨d1, e1, hcb.1, ?_, ?_⟩
    · rintro i en q x he hq hx ⟨rfl, rfl⟩
      have := (hr1.inv.cinv.tcb x.name x.type x.cb).mpr ⟨q, x, hx, rfl, rfl, rfl⟩
      rw [hcb.1] at this
      cases this
    · intro cb d2 honly ha
      obtain ⟨evs, hl⟩ := ha.log hreach
      refine ⟨evs, hl, fun hreg q rr => ?_⟩
      have hok := C24_answers_fit (ha.reach hreach)
      rw [hl] at hok
      refine no_call hok (fun n t hc => ?_) hreg q rr
      obtain ⟨h1, h2⟩ := hcb.2 n t cb hc
      exact h2 (honly n t h1)

/-- C25, for a callback that returns -1: its query ends at once, before any other callback, and
from then on the callback is not called unless it is registered again (if it was not also
registered for something else).  Missing: a callback that registers a query of type ANY for the
name of the record it is told of and then returns -1, see `C25_any_counterexample`. -/
theorem C25_stopped_is_final_partial {env : Env} {d : D Ptrs} (h : Reach env d) {pre post : List Event} {q cb : Nat}
    {rr : Answer} (hl : d.c.log = pre ++ .answer q cb rr :: post)
    (hs : (env.answer (pre ++ [.answer q cb rr])).stop = true)
    (ha : ∀ cb', (rr.name, 255, cb') ∉ (env.answer (pre ++ [.answer q cb rr])).reg) :
    ∃ t post', typeFits t rr ∧ callback pre rr.name t = some cb ∧
      post = regEvents (env.answer (pre ++ [.answer q cb rr])).reg ++ .unregistered rr.name t :: post' ∧
      ((∀ n t', callback pre n t' = some cb → n = rr.name ∧ t' = t) →
        (∀ n t', (n, t', cb) ∉ (env.answer (pre ++ [.answer q cb rr])).reg) →
        (∀ n t', Event.registered n t' cb ∉ post') → ∀ q' rr', Event.answer q' cb rr' ∉ post) := by
  obtain ⟨t, post', h1, h2, h3⟩ := h.stops pre q cb rr post hl hs ha
  refine ⟨t, post', h1, h2, h3, fun honly hreg hpost q' rr' m => ?_⟩
  have hok := C24_answers_fit h
  have e : d.c.log = ((pre ++ [.answer q cb rr]) ++ (regEvents (env.answer (pre ++ [.answer q cb rr])).reg ++
      [.unregistered rr.name t])) ++ post' := by rw [hl, h3]; simp
  rw [e] at hok
  have hnr : ∀ n t', Event.registered n t' cb ∉ regEvents (env.answer (pre ++ [.answer q cb rr])).reg := by
    intro n t' m'
    unfold regEvents at m'
    obtain ⟨x, mx, ex⟩ := List.mem_map.mp m'
    simp only [Event.registered.injEq] at ex
    obtain ⟨rfl, rfl, rfl⟩ := ex
    exact hreg _ _ mx
  have hno : Event.answer q' cb rr' ∉ post' := by
    refine no_call hok (fun n t' hc => ?_) hpost q' rr'
    rw [← List.append_assoc, callback_append_unregistered] at hc
    split at hc
    · cases hc
    · rename_i hne
      rcases callback_since _ hc with hc | hc
      · rcases callback_since _ hc with hc | hc
        · obtain ⟨f1, f2⟩ := honly n t' hc
          exact hne ⟨f1.symm, f2.symm⟩
        · simp at hc
      · exact hnr n t' hc
  rw [h3, List.mem_append] at m
  rcases m with m | m
  · unfold regEvents at m
    obtain ⟨x, _, ex⟩ := List.mem_map.mp m
    cases ex
  · rcases List.mem_cons.mp m with m | m
    · cases m
    · exact hno m

/-! ### Concrete cases -/

namespace Sample

/-- C24: a third record arrives. -/
example : Answered quiet cached (ptrMsg 10) other [ptrTo 98 1 10] (ptrTo 100 1 20) ∧
    (ptrTo 100 1 20).cls ≠ 32768 + cached.c.cls ∧ callback cached.c.log (nm 97) 12 = some 7 ∧
    ∀ b ∈ cached.c.listed (nm 97) 12, carries (ptrTo 100 1 20) b = false :=
  ⟨cached_answered (by decide +kernel), by decide +kernel, by decide +kernel, by decide +kernel⟩

/-- C24: a third record arrives with the cache-flush bit; the callback is told of the two old
ones and then of the new one. -/
example : (answersOf (after quiet [.query (nm 97) 12 (some 7),
      .recv (at_ 101) { ptrMsg 10 with an := [ptrTo 98 1 10, ptrTo 99 1 100] } other,
      .recv (at_ 102) { ptrMsg 10 with an := [ptrTo 100 flush 20] } other]).c.log).map (fun b => (b.rdname, b.ttl)) =
    [(some (nm 98), 114), (some (nm 99), 159), (some (nm 99), 0), (some (nm 98), 0), (some (nm 100), 120)] := by
  decide +kernel

/-- Callbacks that return -1 for new entries. -/
def once : Env :=
  ⟨fun l => match l.getLast? with
    | some (.answer _ _ rr) => { stop := rr.ttl != 0 }
    | _ => {}, fun _ => some []⟩

/-- C25: the callback is called for the first of two answers and returns -1. -/
example : (after once [.query (nm 97) 12 (some 7),
      .recv (at_ 101) { ptrMsg 10 with an := [ptrTo 98 1 10, ptrTo 99 1 100] } other]).c.log.map (fun e => match e with
        | .registered .. => 0 | .answer .. => 1 | .unregistered .. => 2 | _ => 3) = [0, 1, 2] := by decide +kernel

theorem once_keeps : once.KeepOnExpiry := by
  intro l q cb rr h
  simp [once, h]

example : Reach once (after once [.query (nm 97) 12 (some 7),
    .recv (at_ 101) { ptrMsg 10 with an := [ptrTo 98 1 10, ptrTo 99 1 100] } other]) :=
  reach_after once_keeps _ (by decide +kernel)

/-- A callback that registers a query of type ANY and returns -1. -/
def anyAndStop : Env :=
  ⟨fun l => match l.getLast? with
    | some (.answer _ 7 rr) => { stop := rr.ttl != 0, reg := [(rr.name, 255, 8)] }
    | _ => {}, fun _ => some []⟩

end Sample

open Sample in
/-- C25 is false in full: a callback that registers a query of type ANY for the same name and
then returns -1 ends that new query instead of its own one, which stays registered
(`libmdnsd/mdnsd.c:489-490` takes the query of the entry after the callback). -/
theorem C25_any_counterexample :
    let d := after anyAndStop [.query (nm 97) 12 (some 7), .recv (at_ 101) (ptrMsg 10) other]
    Event.unregistered (nm 97) 255 ∈ d.c.log ∧ Event.unregistered (nm 97) 12 ∉ d.c.log ∧
      callback d.c.log (nm 97) 12 = some 7 := by decide +kernel

end Mdns
