import Verif.Lemmas.Asked

/-!
# Expiry
-/

namespace Mdns

/-- Some entries that have expired were removed, and some of those were reported. -/
structure Swept (env : Env) (c c' : Core) (evs : List Event) : Prop where
  log : c'.log = c.log ++ evs
  now : c'.now = c.now
  live : ∀ i, (c'.rrs i).filter c.live = (c.rrs i).filter c.live
  sub : ∀ i, (c'.rrs i).Sublist (c.rrs i)
  told : ∀ b ∈ answersOf evs, ∃ i, ∃ a ∈ c.rrs i, c.live a = false ∧ b = a.gone ∧ a ∉ c'.rrs i
  once : (answersOf evs).Pairwise fun a b => ¬ SameRec a b
  ask : NoEnd evs → ∀ i, ∀ e ∈ c.cache i, e.q.isSome →
    (∃ e' ∈ c'.cache i, e'.rr = e.rr ∧ e'.q.isSome) ∨ (c.live e.rr = false ∧ e.rr.gone ∈ answersOf evs)
  keep : env.KeepOnExpiry → NoEnd evs

theorem Swept.same {env : Env} {c c' : Core} (h : c'.cache = c.cache) (hl : c'.log = c.log) (hn : c'.now = c.now) :
    Swept env c c' [] where
  log := by rw [hl, List.append_nil]
  now := hn
  live i := by unfold Core.rrs; rw [h]
  sub i := by unfold Core.rrs; rw [h]; exact List.Sublist.refl _
  told _ m := by cases m
  once := .nil
  ask _ i e m hq := .inl ⟨e, by rw [h]; exact m, rfl, hq⟩
  keep _ := .nil

theorem live_now {c c' : Core} (h : c'.now = c.now) : c'.live = c.live := by
  funext a
  simp only [Core.live, h]

theorem gone_iff {a b : Answer} : SameRec a.gone b.gone ↔ SameRec a b := SameRec.setTtl

/-- Two entries that are equal as records are one. -/
theorem CInv.one {c : Core} (h : CInv c) {i j : Nat} {a b : Answer} (ma : a ∈ c.rrs i) (mb : b ∈ c.rrs j) (hs : SameRec a b) :
    a = b ∧ i = j := by
  obtain ⟨ea, ha, rfl⟩ := List.mem_map.mp ma
  obtain ⟨eb, hb, rfl⟩ := List.mem_map.mp mb
  have e : i = j := by rw [← h.cbucket i ea ha, ← h.cbucket j eb hb, hs.1]
  subst e
  refine ⟨?_, rfl⟩
  have := h.cuniq i
  generalize c.cache i = l at ha hb this
  induction l with
  | nil => cases ha
  | cons x l ih =>
    obtain ⟨h1, h2⟩ := List.pairwise_cons.mp this
    rcases List.mem_cons.mp ha with e1 | ha' <;> rcases List.mem_cons.mp hb with e2 | hb'
    · rw [e1, e2]
    · subst e1; exact absurd hs (h1 _ hb')
    · subst e2; exact absurd hs.symm (h1 _ ha')
    · exact ih ha' hb' h2

theorem NoEnd.left {a b : List Event} (h : NoEnd (a ++ b)) : NoEnd a := fun x y m => h x y (by simp [m])
theorem NoEnd.right {a b : List Event} (h : NoEnd (a ++ b)) : NoEnd b := fun x y m => h x y (by simp [m])

theorem Swept.trans {env : Env} {a b c : Core} {e1 e2 : List Event} (ha : CInv a) (h : Swept env a b e1) (h' : Swept env b c e2) :
    Swept env a c (e1 ++ e2) where
  log := by rw [h'.log, h.log, List.append_assoc]
  now := h'.now.trans h.now
  live i := by
    rw [← h.live i, ← live_now h.now, h'.live i]
  sub i := (h'.sub i).trans (h.sub i)
  told x m := by
    rw [answersOf_append] at m
    rcases List.mem_append.mp m with m | m
    · obtain ⟨i, y, my, hl, e, hn⟩ := h.told x m
      exact ⟨i, y, my, hl, e, fun hm => hn ((h'.sub i).subset hm)⟩
    · obtain ⟨i, y, my, hl, e, hn⟩ := h'.told x m
      exact ⟨i, y, (h.sub i).subset my, by rw [← live_now h.now]; exact hl, e, hn⟩
  once := by
    rw [answersOf_append, List.pairwise_append]
    refine ⟨h.once, h'.once, fun x mx y my hs => ?_⟩
    obtain ⟨i, x0, m1, _, rfl, hn⟩ := h.told x mx
    obtain ⟨j, y0, m2, _, rfl, _⟩ := h'.told y my
    obtain ⟨rfl, rfl⟩ := ha.one m1 ((h.sub j).subset m2) (gone_iff.mp hs)
    exact hn m2
  ask hn i e m hq := by
    rw [answersOf_append]
    rcases h.ask hn.left i e m hq with ⟨e', m', hr, hq'⟩ | ⟨hl, ht⟩
    · rcases h'.ask hn.right i e' m' hq' with ⟨e'', m'', hr', hq''⟩ | ⟨hl, ht⟩
      · exact .inl ⟨e'', m'', hr'.trans hr, hq''⟩
      · rw [hr] at hl ht
        exact .inr ⟨by rw [← live_now h.now]; exact hl, by simp [ht]⟩
    · exact .inr ⟨hl, by simp [ht]⟩
  keep hk := NoEnd.append.mpr ⟨h.keep hk, h'.keep hk⟩

theorem CInv.cExpire_swept {c c' : Core} (h : CInv c) {env : Env} {i : Nat} (e : c.cExpire env i = .ok c') :
    ∃ evs, Cbs c c' evs ∧ Swept env c c' evs := by
  obtain ⟨c1, evs, e1, s1, o1, r1, a1, q1, k1⟩ := h.cExpire env i
  rw [e] at e1
  cases e1
  refine ⟨evs, s1, ⟨s1.log, s1.now, fun j => ?_, fun j => ?_, fun b m => ?_, ?_, fun hn j en m hq => ?_, k1⟩⟩
  · by_cases hj : j = i
    · subst hj
      rw [r1, List.filter_filter]
      simp
    · rw [o1 j hj]
  · by_cases hj : j = i
    · subst hj
      rw [r1]
      exact List.filter_sublist
    · rw [o1 j hj]
      exact List.Sublist.refl _
  · obtain ⟨a, ma, rfl⟩ := List.mem_map.mp (a1.subset m)
    obtain ⟨ma, hl⟩ := List.mem_filter.mp ma
    have hl : c.live a = false := by simpa using hl
    refine ⟨i, a, ma, hl, rfl, ?_⟩
    rw [r1, List.mem_filter]
    rintro ⟨_, h2⟩
    rw [hl] at h2
    cases h2
  · refine List.Pairwise.sublist a1 ?_
    rw [List.pairwise_map]
    refine List.Pairwise.sublist List.filter_sublist ?_
    unfold Core.rrs
    rw [List.pairwise_map]
    exact (h.cuniq i).imp fun h1 h2 => h1 (gone_iff.mp h2)
  · obtain ⟨q2, q3, q4⟩ := q1 hn
    by_cases hj : j = i
    · subst hj
      cases hl : c.live en.rr with
      | true =>
        left
        obtain ⟨e', m', h1, h2⟩ := q3.mem (List.mem_filter.mpr ⟨m, hl⟩)
        exact ⟨e', m', h1, h2 hq⟩
      | false =>
        right
        refine ⟨rfl, q4.subset (List.mem_map_of_mem ?_)⟩
        unfold asked
        exact List.mem_map_of_mem (List.mem_filter.mpr ⟨List.mem_filter.mpr ⟨m, by simp [hl]⟩, hq⟩)
    · obtain ⟨e', m', h1, h2⟩ := (q2 j hj).mem m
      exact .inl ⟨e', m', h1, h2 hq⟩

theorem CInv.gc_swept {c c' : Core} (h : CInv c) {env : Env} (e : c.gc env = .ok c') : ∃ evs, Swept env c c' evs ∧
    (∀ j, c'.rrs j = (c.rrs j).filter c.live) ∧ c'.expireall = c.now.sec + gcInterval := by
  have go : ∀ (n : Nat) {c c' : Core}, CInv c → Core.gc.go env n c = .ok c' → ∃ evs, Swept env c c' evs := by
    intro n
    induction n with
    | zero =>
      intro c c' _ e
      cases e
      exact ⟨[], .same rfl rfl rfl⟩
    | succ n ih =>
      intro c c' h e
      unfold Core.gc.go at e
      cases e1 : c.cExpire env (lprime - (n + 1)) with
      | ok c1 =>
        rw [e1] at e
        obtain ⟨ev1, s1, w1⟩ := h.cExpire_swept e1
        obtain ⟨ev2, w2⟩ := ih s1.inv e
        exact ⟨_, w1.trans h w2⟩
      | ub => rw [e1] at e; cases e
      | hang => rw [e1] at e; cases e
  obtain ⟨c1, evs, e1, s1, r1, _⟩ := h.gc env
  have e0 := e
  rw [e] at e1
  cases e1
  unfold Core.gc at e0
  cases eg : Core.gc.go env lprime c with
  | ok c2 =>
    rw [eg] at e0
    obtain ⟨ev, w⟩ := go _ h eg
    have e0 : { c2 with expireall := c2.now.sec + gcInterval } = { c1 with expireall := c.now.sec + gcInterval } := by
      simpa using e0
    have hc : c2.cache = c1.cache := (congrArg Core.cache e0 :)
    have hl : c2.log = c1.log := (congrArg Core.log e0 :)
    have hn : c2.now = c1.now := (congrArg Core.now e0 :)
    refine ⟨ev ++ [], w.trans h (.same hc.symm hl.symm hn.symm), r1, rfl⟩
  | ub => rw [eg] at e0; cases e0
  | hang => rw [eg] at e0; cases e0

theorem Upd.swept {env : Env} {suf : List Nat} {s t : QSt} (n : Upd env suf s t) : ∃ evs, Swept env s.c t.c evs := by
  induction n with
  | done => exact ⟨[], .same rfl rfl rfl⟩
  | idle _ _ _ _ ih => exact ih
  | @again p _ s _ y c1 _ cb h _ _ _ he hc _ _ n ih =>
    obtain ⟨ev1, _, w1⟩ := h.cExpire_swept he
    obtain ⟨ev2, w2⟩ := ih
    exact ⟨_, w1.trans h ((Swept.same (c := c1) (c' := c1.resetQ p { y with cb := cb }) rfl rfl rfl).trans hc.inv w2)⟩
  | @ask p _ s _ y h _ _ _ n ih =>
    obtain ⟨ev2, w2⟩ := ih
    exact ⟨_, (Swept.same (c := s.c) (c' := s.c.askedQ p y) rfl rfl rfl).trans h w2⟩

theorem Asking.swept {env : Env} {c c' : Core} {ret : Nat} {m : Out} (n : Asking env c ret m c') (h : CInv c) :
    ∃ evs, Swept env c c' evs := by
  have rf : ∀ {c'}, c'.recfree = c.recfree → Swept env c c' [] := fun e =>
    .same (Still.recfree e).cache (recfree_log e) (recfree_now e)
  cases n with
  | other e _ _ => exact ⟨[], rf e⟩
  | @asking c2 c3 e nq ng =>
    have h2 : CInv c2 := nq.start
    have w2 : ∃ evs, Swept env c2 c3 evs := by
      cases nq with
      | no => exact ⟨[], .same rfl rfl rfl⟩
      | yes _ _ n =>
        obtain ⟨evs, w⟩ := n.swept
        exact ⟨evs ++ [], w.trans h2 (.same rfl rfl rfl)⟩
    have w3 : ∃ evs, Swept env c3 c' evs := by
      cases ng with
      | no => exact ⟨[], .same rfl rfl rfl⟩
      | yes h3 _ e =>
        obtain ⟨evs, w, _⟩ := h3.gc_swept e
        exact ⟨evs, w⟩
    obtain ⟨_, w2⟩ := w2
    obtain ⟨_, w3⟩ := w3
    exact ⟨_, (rf e).trans h (w2.trans h2 w3)⟩

/-- The whole cache is swept, or the time for that stays as it is. -/
theorem Asking.clean {env : Env} {c c' : Core} {ret : Nat} {m : Out} (n : Asking env c ret m c') :
    (c'.expireall = c.now.sec + gcInterval ∧ ∀ i, ∀ a ∈ c'.rrs i, c.live a = true) ∨ (c'.expireall = c.expireall ∧
      ((ret = 0 ∧ c.shutdown = false) ∨ (m.qr = false ∧ m.ops ≠ [] ∧ ∀ r, (.ns, r) ∉ m.tags) → ¬ c.expireall < c.now.sec)) := by
  cases n with
  | other e h h0 =>
    refine .inr ⟨(Still.recfree e).exp, ?_⟩
    rintro (⟨h1, h2⟩ | ⟨h1, h2, h3⟩)
    · rw [h0 h1] at h2; cases h2
    · rcases h with h | h | ⟨r, h⟩
      · rw [h] at h1; cases h1
      · exact absurd h h2
      · exact absurd h (h3 r)
  | @asking c2 c3 e nq ng =>
    have e3 : c3.expireall = c.expireall := by
      have h2 : c2.expireall = c.expireall := (Still.recfree e).exp
      cases nq with
      | no => exact h2
      | yes _ _ n => exact (congrArg Core.expireall n.rest : _).trans h2
    have n3 : c3.now = c.now := nq.now.trans (Still.recfree e).now
    cases ng with
    | no _ hn => exact .inr ⟨e3, fun _ => by rw [← e3, ← n3]; exact hn⟩
    | yes h3 _ e =>
      obtain ⟨evs, _, w, hx⟩ := h3.gc_swept e
      left
      rw [hx, n3]
      refine ⟨rfl, fun i a m => ?_⟩
      rw [w, live_now n3] at m
      exact (List.mem_filter.mp m).2

end Mdns
