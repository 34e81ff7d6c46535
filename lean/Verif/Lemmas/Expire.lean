import Verif.Lemmas.Cache

/-!
# Expiry, flush, deletion and insertion in the cache
-/

namespace Mdns

/-- No query ended during these events. -/
def NoEnd (evs : List Event) : Prop := ∀ h t, Event.unregistered h t ∉ evs

theorem NoEnd.append {a b : List Event} : NoEnd (a ++ b) ↔ NoEnd a ∧ NoEnd b := by
  simp only [NoEnd, List.mem_append, not_or]
  exact ⟨fun h => ⟨fun x t => (h x t).1, fun x t => (h x t).2⟩, fun h x t => ⟨h.1 x t, h.2 x t⟩⟩

theorem NoEnd.registered (l : List (Bytes × Nat × Nat)) :
    NoEnd (l.map fun e => Event.registered e.1 e.2.1 e.2.2) := by
  intro h t m
  simp at m

theorem NoEnd.nil : NoEnd [] := fun _ _ m => by cases m

/-- What callbacks do to everything but the cache entries. -/
structure Cbs (c c' : Core) (evs : List Event) : Prop where
  inv : CInv c'
  rest : c'.rest = c.rest
  log : c'.log = c.log ++ evs
  kept : ∀ q x, c.qs q = some x → (∃ cb, c'.qs q = some { x with cb := cb }) ∨
    c'.qs q = none ∧ Event.unregistered x.name x.type ∈ evs
  new : ∀ q x, c'.qs q = some x → (∃ cb, c.qs q = some { x with cb := cb }) ∨
    c.qs q = none ∧ c.nextq ≤ q ∧ x.nexttry = c.now.sec ∧ x.tries = 0 ∧ c'.checkqlist = c.now.sec
  chk : c'.checkqlist = c.checkqlist ∨ c'.checkqlist = c.now.sec
  nextq : c.nextq ≤ c'.nextq
  qlist : NoEnd evs → ∃ l, c'.qlist = l ++ c.qlist

theorem Cbs.now {c c' : Core} {evs : List Event} (h : Cbs c c' evs) : c'.now = c.now :=
  (congrArg Core.now h.rest : c'.rest.now = c.rest.now)

theorem Cbs.trans {a b c : Core} {e1 e2 : List Event} (ha : CInv a) (h : Cbs a b e1) (h' : Cbs b c e2) :
    Cbs a c (e1 ++ e2) where
  inv := h'.inv
  rest := h'.rest.trans h.rest
  log := by rw [h'.log, h.log, List.append_assoc]
  kept q x hx := by
    rcases h.kept q x hx with ⟨cb, hx1⟩ | ⟨hx1, m⟩
    · rcases h'.kept q _ hx1 with ⟨cb', hx2⟩ | ⟨hx2, m⟩
      · exact .inl ⟨cb', hx2⟩
      · exact .inr ⟨hx2, by simp only [List.mem_append]; exact .inr m⟩
    · refine .inr ⟨?_, by simp [m]⟩
      cases hq : c.qs q with
      | none => rfl
      | some y =>
        rcases h'.new q y hq with ⟨cb, hy⟩ | ⟨_, hb, _⟩
        · rw [hx1] at hy
          exact absurd hy (by simp)
        · -- ids are not reused
          have := ha.qbound q x hx
          have := h.nextq
          omega
  new q x hx := by
    rcases h'.new q x hx with ⟨cb, hx1⟩ | ⟨hx1, e0, e1, e2, e3⟩
    · rcases h.new q _ hx1 with ⟨cb', hx2⟩ | ⟨hx2, e0, e1, e2, e3⟩
      · exact .inl ⟨cb', hx2⟩
      · refine .inr ⟨hx2, e0, e1, e2, ?_⟩
        rcases h'.chk with e | e
        · rw [e, e3]
        · rw [e, h.now]
    · rw [h.now] at e1 e3
      refine .inr ⟨?_, Nat.le_trans h.nextq e0, e1, e2, e3⟩
      cases hq : a.qs q with
      | none => rfl
      | some y =>
        have := ha.qbound q y hq
        have := h.nextq
        omega
  chk := by
    rcases h'.chk with e | e
    · rw [e]; exact h.chk
    · rw [e, h.now]; exact .inr rfl
  nextq := Nat.le_trans h.nextq h'.nextq
  qlist hn := by
    rw [NoEnd.append] at hn
    obtain ⟨l1, f1⟩ := h.qlist hn.1
    obtain ⟨l2, f2⟩ := h'.qlist hn.2
    exact ⟨l2 ++ l1, by rw [f2, f1, List.append_assoc]⟩

theorem Cbs.refl {c : Core} (h : CInv c) : Cbs c c [] where
  inv := h
  rest := rfl
  log := by simp
  kept q x hx := .inl ⟨x.cb, hx⟩
  new q x hx := .inl ⟨x.cb, hx⟩
  chk := .inl rfl
  nextq := Nat.le_refl _
  qlist _ := ⟨[], rfl⟩

theorem Regd.cbs {c c' : Core} {evs : List Event} (h : Regd c c') (hl : c'.log = c.log ++ evs) :
    Cbs c c' evs where
  inv := h.inv
  rest := h.rest
  log := hl
  kept q x hx := .inl (h.keep q x hx)
  new := h.new
  chk := h.chk
  nextq := h.nextq
  qlist _ := h.qlist

theorem CInv.qDone_cbs {c : Core} (h : CInv c) {q : Nat} {x : Query} (hx : c.qs q = some x) :
    ∃ c', c.qDone q = .ok c' ∧ Cbs c c' [.unregistered x.name x.type] ∧ ∀ i, c'.rrs i = c.rrs i := by
  obtain ⟨c', e, s, hq, hl, hn, _, hc⟩ := h.qDone hx
  refine ⟨c', e, ?_, s.rrs⟩
  constructor
  · exact s.inv
  · exact s.rest
  · exact hl
  · intro q' y hy
    rw [hq]
    by_cases e : q' = q
    · subst e
      rw [hx] at hy
      cases hy
      exact .inr ⟨by simp, by simp⟩
    · exact .inl ⟨y.cb, by simp only [upd, e, if_false]; exact hy⟩
  · intro q' y hy
    rw [hq] at hy
    unfold upd at hy
    split at hy
    · exact absurd hy (by simp)
    · exact .inl ⟨y.cb, hy⟩
  · exact .inl hc
  · exact Nat.le_of_eq hn.symm
  · intro hh
    exact absurd (List.mem_singleton.mpr rfl) (hh x.name x.type)

/-- Same records, and entries with a query keep having one. -/
inductive QLe : List Cached → List Cached → Prop
  | nil : QLe [] []
  | cons {a b : Cached} {l l' : List Cached} :
    a.rr = b.rr → (a.q.isSome → b.q.isSome) → QLe l l' → QLe (a :: l) (b :: l')

theorem QLe.refl : ∀ l, QLe l l
  | [] => .nil
  | _ :: l => .cons rfl id (QLe.refl l)

theorem QLe.trans {l1 l2 l3 : List Cached} (h : QLe l1 l2) (h' : QLe l2 l3) : QLe l1 l3 := by
  induction h generalizing l3 with
  | nil => exact h'
  | cons e q _ ih =>
    cases h' with
    | cons e' q' h' => exact .cons (e.trans e') (fun x => q' (q x)) (ih h')

theorem QLe.rrs {l l' : List Cached} (h : QLe l l') : l'.map (·.rr) = l.map (·.rr) := by
  induction h with
  | nil => rfl
  | cons e _ _ ih => simp [e, ih]

theorem QLe.append {a a' b b' : List Cached} (h : QLe a a') (h' : QLe b b') : QLe (a ++ b) (a' ++ b') := by
  induction h with
  | nil => exact h'
  | cons e q _ ih => exact .cons e q ih

theorem QLe.take {l l' : List Cached} (h : QLe l l') (k : Nat) : QLe (l.take k) (l'.take k) := by
  induction h generalizing k with
  | nil => simp [QLe.nil]
  | cons e q _ ih =>
    cases k with
    | zero => simp [QLe.nil]
    | succ k => exact .cons e q (ih k)

theorem QLe.drop {l l' : List Cached} (h : QLe l l') (k : Nat) : QLe (l.drop k) (l'.drop k) := by
  induction h generalizing k with
  | nil => simp [QLe.nil]
  | cons e q h ih =>
    cases k with
    | zero => exact .cons e q h
    | succ k => exact ih k

theorem QLe.filter {l l' : List Cached} (h : QLe l l') (p : Answer → Bool) :
    QLe (l.filter fun e => p e.rr) (l'.filter fun e => p e.rr) := by
  induction h with
  | nil => exact .nil
  | @cons a b _ _ e q _ ih =>
    simp only [List.filter_cons, e]
    split
    · exact .cons e q ih
    · exact ih

/-- The records with a query. -/
def asked (l : List Cached) : List Answer := (l.filter fun e => e.q.isSome).map (·.rr)

theorem QLe.asked {l l' : List Cached} (h : QLe l l') : (asked l).Sublist (asked l') := by
  induction h with
  | nil => exact List.Sublist.refl _
  | @cons a b _ _ e q _ ih =>
    unfold Mdns.asked at *
    simp only [List.filter_cons]
    by_cases ha : a.q.isSome
    · simp only [ha, q ha, if_true, List.map_cons, e]
      exact ih.cons_cons _
    · rw [if_neg ha]
      split
      · exact ih.cons _
      · exact ih

theorem QLe.of_index : ∀ {l l' : List Cached}, l'.map (·.rr) = l.map (·.rr) →
    (∀ (k : Nat) (a : Cached), l[k]? = some a → a.q.isSome → ∃ b : Cached, l'[k]? = some b ∧ b.q.isSome) →
    QLe l l'
  | [], [], _, _ => .nil
  | [], _ :: _, h, _ => by simp at h
  | _ :: _, [], h, _ => by simp at h
  | a :: l, b :: l', h, hq => by
    simp only [List.map_cons, List.cons.injEq] at h
    refine .cons h.1.symm (fun ha => ?_) (QLe.of_index h.2 fun k x hx hxq => ?_)
    · obtain ⟨b', h1, h2⟩ := hq 0 a rfl ha
      cases h1
      exact h2
    · exact hq (k + 1) x hx hxq

theorem Regd.qle {c c' : Core} (h : Regd c c') (i : Nat) : QLe (c.cache i) (c'.cache i) :=
  .of_index (h.rrs i) (h.entries i)

/-- Other cache entries. -/
theorem CInv.withCache {c : Core} (h : CInv c) (f : Nat → List Cached)
    (hf : ∀ i e, e ∈ f i → ∃ e' ∈ c.cache i, e.rr.name = e'.rr.name ∧ e.rr.type = e'.rr.type ∧ e.q = e'.q)
    (hp : ∀ i, (f i).Pairwise fun a b => ¬ SameRec a.rr b.rr) : CInv { c with cache := f } := by
  refine { h with cbucket := ?_, cq := ?_, cuniq := hp }
  · intro i e m
    obtain ⟨e', m', e1, _⟩ := hf i e m
    rw [e1]
    exact h.cbucket i e' m'
  · intro i e q m hq
    obtain ⟨e', m', e1, e2, e3⟩ := hf i e m
    obtain ⟨x, hx, f1, f2⟩ := h.cq i e' q m' (by rw [← e3]; exact hq)
    refine ⟨x, hx, by rw [e1]; exact f1, ?_⟩
    unfold typeFits at *
    rw [e2]
    exact f2

/-- Answer callbacks do not return -1 when they are told that a record is gone. -/
def Env.KeepOnExpiry (env : Env) : Prop :=
  ∀ t q cb rr, rr.ttl = 0 → (env.answer (t ++ [.answer q cb rr])).stop = false

theorem noEnd_answer {q cb : Nat} {rr : Answer} {evs : List Event} (h : NoEnd evs) :
    NoEnd (.answer q cb rr :: evs) := by
  intro a b m
  rcases List.mem_cons.mp m with m | m
  · exact absurd m (by simp)
  · exact h a b m

theorem CInv.qAnswer {c : Core} (h : CInv c) (env : Env) (e : Cached)
    (he : ∀ q, e.q = some q → ∃ x, c.qs q = some x ∧ x.name = e.rr.name ∧ typeFits x.type e.rr) :
    ∃ c' evs, c.qAnswer env e = .ok c' ∧ Cbs c c' evs ∧ (∀ i, c'.rrs i = c.rrs i) ∧
      answersOf evs = (if e.q.isSome then [c.seen e.rr] else []) ∧
      (NoEnd evs → ∀ i, QLe (c.cache i) (c'.cache i)) ∧
      (env.KeepOnExpiry → e.rr.ttl ≤ c.now.sec → NoEnd evs) := by
  cases hq : e.q with
  | none =>
    refine ⟨c, [], by simp [Core.qAnswer, hq], .refl h, fun _ => rfl, by simp [answersOf], fun _ i => QLe.refl _,
      fun _ _ => .nil⟩
  | some q =>
    obtain ⟨x, hx, hn, ht⟩ := he q hq
    obtain ⟨c1, evs, e1, s1, l1, hevs⟩ := h.callAnswer env hx hn ht
    have a1 : answersOf (.answer q x.cb (c.seen e.rr) :: evs) = [c.seen e.rr] := by
      rw [hevs]
      show c.seen e.rr :: answersOf _ = _
      rw [answersOf_registered]
    cases hs : (env.answer (c.log ++ [.answer q x.cb (c.seen e.rr)])).stop with
    | false =>
      refine ⟨c1, _, ?_, s1.cbs l1, s1.rrs, a1, fun _ i => s1.qle i, fun _ _ => ?_⟩
      · simp only [Core.qAnswer, hq, e1, hs, Bool.false_eq_true, if_false]
      · rw [hevs]
        exact noEnd_answer (.registered _)
    | true =>
      obtain ⟨x1, hx1, n1, t1⟩ := s1.qs_ex hx
      obtain ⟨c2, e2, s2, r2⟩ := s1.inv.qDone_cbs hx1
      refine ⟨c2, _, ?_, (s1.cbs l1).trans h s2, fun i => (r2 i).trans (s1.rrs i), ?_, ?_, ?_⟩
      · simp only [Core.qAnswer, hq, e1, hs, if_true]
        exact e2
      · rw [answersOf_append, a1]
        simp [answersOf]
      · intro hne
        exact absurd (by simp) (hne x1.name x1.type)
      · intro hk hle
        have := hk c.log q x.cb (c.seen e.rr) (by unfold Core.seen; rw [if_pos hle])
        rw [this] at hs
        exact absurd hs (by simp)

theorem take_eraseIdx {α : Type} (l : List α) (k : Nat) : (l.eraseIdx k).take k = l.take k := by
  induction l generalizing k with
  | nil => simp
  | cons a l ih =>
    cases k with
    | zero => simp
    | succ k => simp [ih]

theorem map_eraseIdx {α β : Type} (f : α → β) (l : List α) (k : Nat) :
    (l.eraseIdx k).map f = (l.map f).eraseIdx k := by
  induction l generalizing k with
  | nil => simp
  | cons a l ih =>
    cases k with
    | zero => simp
    | succ k => simp [ih]

theorem drop_eraseIdx {α : Type} (l : List α) (k : Nat) : (l.eraseIdx k).drop k = l.drop (k + 1) := by
  induction l generalizing k with
  | nil => simp
  | cons a l ih =>
    cases k with
    | zero => simp
    | succ k => simp [ih]

/-- A record as reported when it is gone. -/
def Answer.gone (a : Answer) : Answer := { a with ttl := 0 }

/-- Unexpired. -/
def Core.live (c : Core) (a : Answer) : Bool := decide (c.now.sec < a.ttl)

theorem rest_now {c c' : Core} (h : c'.rest = c.rest) : c'.now = c.now :=
  (congrArg Core.now h : c'.rest.now = c.rest.now)

theorem CInv.cExpireF (env : Env) (i : Nat) : ∀ (fuel k : Nat) (c : Core), CInv c →
    (c.cache i).length - k < fuel →
    ∃ c' evs, Core.cExpireF env i fuel k c = .ok c' ∧ Cbs c c' evs ∧ (∀ j, j ≠ i → c'.rrs j = c.rrs j) ∧
      c'.rrs i = (c.rrs i).take k ++ ((c.rrs i).drop k).filter c.live ∧
      (answersOf evs).Sublist ((((c.rrs i).drop k).filter fun a => !c.live a).map Answer.gone) ∧
      (NoEnd evs → (∀ j, j ≠ i → QLe (c.cache j) (c'.cache j)) ∧
        QLe ((c.cache i).take k ++ ((c.cache i).drop k).filter fun e => c.live e.rr) (c'.cache i) ∧
        ((asked (((c.cache i).drop k).filter fun e => !c.live e.rr)).map Answer.gone).Sublist (answersOf evs)) ∧
      (env.KeepOnExpiry → NoEnd evs)
  | 0, _, _, _, hf => absurd hf (by simp)
  | fuel + 1, k, c, h, hf => by
    cases hk : (c.cache i)[k]? with
    | none =>
      have hlen := List.getElem?_eq_none_iff.mp hk
      have hd : (c.cache i).drop k = [] := List.drop_eq_nil_of_le hlen
      have ht : (c.cache i).take k = c.cache i := List.take_of_length_le hlen
      refine ⟨c, [], ?_, .refl h, fun _ _ => rfl, ?_, ?_, fun _ => ⟨fun j _ => .refl _, ?_, ?_⟩, fun _ => .nil⟩
      · simp only [Core.cExpireF, hk]
      · unfold Core.rrs
        rw [← List.map_take, ← List.map_drop, hd, ht]
        simp
      · simp [answersOf]
      · rw [hd, ht]
        simp [QLe.refl]
      · rw [hd]
        simp [asked]
    | some e =>
      have hlt : k < (c.cache i).length := by
        rcases Nat.lt_or_ge k (c.cache i).length with hh | hh
        · exact hh
        · rw [List.getElem?_eq_none_iff.mpr hh] at hk
          exact absurd hk (by simp)
      have hmem : e ∈ c.cache i := List.mem_of_getElem? hk
      have hdrop : (c.cache i).drop k = e :: (c.cache i).drop (k + 1) := by
        rw [List.drop_eq_getElem_cons hlt]
        rw [List.getElem?_eq_getElem hlt] at hk
        cases hk
        rfl
      by_cases hexp : c.now.sec ≥ e.rr.ttl
      · have hl : c.live e.rr = false := by simp [Core.live]; exact hexp
        have h1 : CInv { c with cache := upd c.cache i ((c.cache i).eraseIdx k) } := by
          refine h.withCache _ (fun j e' m => ?_) (fun j => ?_)
          · simp only [upd] at m
            split at m
            · rename_i hj
              exact ⟨e', hj ▸ List.mem_of_mem_eraseIdx m, rfl, rfl, rfl⟩
            · exact ⟨e', m, rfl, rfl, rfl⟩
          · simp only [upd]
            split
            · exact (h.cuniq i).sublist (List.eraseIdx_sublist _ _)
            · exact h.cuniq j
        obtain ⟨c1, ev1, e1, s1, r1, a1, q1, k1⟩ := h1.qAnswer env e (fun q hq => h.cq i e q hmem hq)
        have hself : c1.rrs i = (c.rrs i).eraseIdx k := by
          rw [r1 i]
          simp only [Core.rrs, upd_same, map_eraseIdx]
        have hother : ∀ j, j ≠ i → c1.rrs j = c.rrs j := by
          intro j hj
          rw [r1 j]
          simp only [Core.rrs, upd, hj, if_false]
        have hlen1 : (c1.cache i).length = (c.cache i).length - 1 := by
          have := congrArg List.length hself
          simp only [Core.rrs, List.length_map, List.length_eraseIdx] at this
          rw [this, if_pos hlt]
        obtain ⟨c2, ev2, e2, s2, r2, rs2, a2, q2, k2⟩ := CInv.cExpireF env i fuel k c1 s1.inv (by omega)
        have hnow : c1.now = c.now := s1.now
        have hlive : c1.live = c.live := by
          funext a
          simp only [Core.live, hnow]
        have s1' : Cbs c c1 ev1 := { s1 with }
        refine ⟨c2, ev1 ++ ev2, ?_, s1'.trans h s2, fun j hj => (r2 j hj).trans (hother j hj), ?_, ?_, ?_, ?_⟩
        · simp only [Core.cExpireF, hk, if_pos hexp, e1]
          exact e2
        · rw [rs2, hself, hlive, take_eraseIdx, drop_eraseIdx]
          congr 1
          have : (c.rrs i).drop k = e.rr :: (c.rrs i).drop (k + 1) := by
            simp only [Core.rrs, ← List.map_drop, hdrop, List.map_cons]
          rw [this, List.filter_cons, hl]
          rfl
        · rw [answersOf_append]
          have : (c.rrs i).drop k = e.rr :: (c.rrs i).drop (k + 1) := by
            simp only [Core.rrs, ← List.map_drop, hdrop, List.map_cons]
          rw [this, List.filter_cons, hl]
          simp only [Bool.not_false, if_true, List.map_cons]
          rw [hself, hlive, drop_eraseIdx] at a2
          rw [a1]
          split
          · show List.Sublist (_ :: answersOf ev2) _
            have : (Core.seen { c with cache := upd c.cache i ((c.cache i).eraseIdx k) } e.rr) = e.rr.gone := by
              unfold Core.seen
              rw [if_pos hexp]
              rfl
            rw [this]
            exact a2.cons_cons _
          · exact a2.cons _
        · intro hn
          rw [NoEnd.append] at hn
          obtain ⟨q2a, q2b, q2c⟩ := q2 hn.2
          have q1' := q1 hn.1
          have hq1 : QLe ((c.cache i).eraseIdx k) (c1.cache i) := by
            have := q1' i
            simp only [upd_same] at this
            exact this
          refine ⟨fun j hj => ?_, ?_, ?_⟩
          · have := q1' j
            simp only [upd, hj, if_false] at this
            exact this.trans (q2a j hj)
          · rw [hlive] at q2b
            refine QLe.trans ?_ q2b
            rw [hdrop, List.filter_cons, hl]
            simp only [Bool.false_eq_true, if_false]
            have ht := hq1.take k
            have hd := hq1.drop k
            rw [take_eraseIdx] at ht
            rw [drop_eraseIdx] at hd
            exact ht.append (hd.filter _)
          · rw [hlive] at q2c
            rw [hdrop, List.filter_cons, hl, answersOf_append]
            simp only [Bool.not_false, if_true]
            have hd := hq1.drop k
            rw [drop_eraseIdx] at hd
            have hsub := ((hd.filter (fun a => !c.live a)).asked.map Answer.gone).trans q2c
            unfold asked at *
            rw [List.filter_cons]
            by_cases hq : e.q.isSome
            · rw [a1, if_pos hq, if_pos hq]
              have : (Core.seen { c with cache := upd c.cache i ((c.cache i).eraseIdx k) } e.rr) = e.rr.gone := by
                unfold Core.seen
                rw [if_pos hexp]
                rfl
              rw [this]
              exact hsub.cons_cons _
            · rw [a1, if_neg hq, if_neg hq]
              exact hsub
        · intro hk'
          rw [NoEnd.append]
          exact ⟨k1 hk' hexp, k2 hk'⟩
      · have hl : c.live e.rr = true := by simp [Core.live]; omega
        obtain ⟨c2, ev2, e2, s2, r2, rs2, a2, q2, k2⟩ := CInv.cExpireF env i fuel (k + 1) c h (by omega)
        have htake : (c.cache i).take (k + 1) = (c.cache i).take k ++ [e] := by
          rw [List.take_add_one, hk]
          rfl
        have hdr : (c.rrs i).drop k = e.rr :: (c.rrs i).drop (k + 1) := by
          simp only [Core.rrs, ← List.map_drop, hdrop, List.map_cons]
        have htr : (c.rrs i).take (k + 1) = (c.rrs i).take k ++ [e.rr] := by
          simp only [Core.rrs, ← List.map_take, htake, List.map_append, List.map_cons, List.map_nil]
        refine ⟨c2, ev2, ?_, s2, r2, ?_, ?_, ?_, k2⟩
        · simp only [Core.cExpireF, hk, if_neg hexp]
          exact e2
        · rw [rs2, htr, hdr, List.filter_cons, hl]
          simp
        · rw [hdr, List.filter_cons, hl]
          exact a2
        · intro hn
          obtain ⟨qa, qb, qc⟩ := q2 hn
          refine ⟨qa, ?_, ?_⟩
          · rw [htake] at qb
            rw [hdrop, List.filter_cons, hl]
            simpa using qb
          · rw [hdrop, List.filter_cons, hl]
            exact qc

/-- Expiring a chain removes exactly the expired records of this chain, and reports only
those, at most once each, with lifetime 0. -/
theorem CInv.cExpire {c : Core} (h : CInv c) (env : Env) (i : Nat) :
    ∃ c' evs, c.cExpire env i = .ok c' ∧ Cbs c c' evs ∧ (∀ j, j ≠ i → c'.rrs j = c.rrs j) ∧
      c'.rrs i = (c.rrs i).filter c.live ∧
      (answersOf evs).Sublist (((c.rrs i).filter fun a => !c.live a).map Answer.gone) ∧
      (NoEnd evs → (∀ j, j ≠ i → QLe (c.cache j) (c'.cache j)) ∧
        QLe ((c.cache i).filter fun e => c.live e.rr) (c'.cache i) ∧
        ((asked ((c.cache i).filter fun e => !c.live e.rr)).map Answer.gone).Sublist (answersOf evs)) ∧
      (env.KeepOnExpiry → NoEnd evs) := by
  simpa [Core.cExpire] using CInv.cExpireF env i ((c.cache i).length + 1) 0 c h (by omega)

/-! ### Being told of one record -/

/-- Callbacks that return -1 when told that a record is gone do so for this record only. -/
def Env.KeepBut (env : Env) (b : Answer) : Prop :=
  ∀ t q cb rr, rr.ttl = 0 → rr ≠ b → (env.answer (t ++ [.answer q cb rr])).stop = false

theorem Env.KeepOnExpiry.but {env : Env} (h : env.KeepOnExpiry) (b : Answer) : env.KeepBut b :=
  fun t q cb rr h0 _ => h t q cb rr h0

theorem CInv.qAnswer_keep {c c' : Core} (h : CInv c) {env : Env} {e : Cached} {evs : List Event} {b : Answer}
    (he : ∀ q, e.q = some q → ∃ x, c.qs q = some x ∧ x.name = e.rr.name ∧ typeFits x.type e.rr)
    (hc : c.qAnswer env e = .ok c') (hl : c'.log = c.log ++ evs) (hexp : e.rr.ttl ≤ c.now.sec) (hk : env.KeepBut b)
    (hb : e.rr.gone ≠ b) : NoEnd evs := by
  unfold Core.qAnswer at hc
  cases hq : e.q with
  | none =>
    rw [hq] at hc
    cases hc
    have : evs = [] := by simpa using hl
    rw [this]
    exact .nil
  | some q =>
    rw [hq] at hc
    obtain ⟨x, hx, hn, ht⟩ := he q hq
    obtain ⟨c1, evs1, e1, s1, l1, hevs⟩ := h.callAnswer env hx hn ht
    have hs : (env.answer (c.log ++ [.answer q x.cb (c.seen e.rr)])).stop = false := by
      have : c.seen e.rr = e.rr.gone := by
        unfold Core.seen
        rw [if_pos hexp]
        rfl
      rw [this]
      exact hk _ _ _ _ rfl hb
    dsimp only at hc
    rw [e1] at hc
    simp only [hs, Bool.false_eq_true, if_false] at hc
    cases hc
    rw [l1] at hl
    rw [← List.append_cancel_left hl, hevs]
    exact noEnd_answer (.registered _)

theorem QLe.mem {l l' : List Cached} (h : QLe l l') {e : Cached} (m : e ∈ l) :
    ∃ e' ∈ l', e'.rr = e.rr ∧ (e.q.isSome → e'.q.isSome) := by
  induction h with
  | nil => cases m
  | @cons a b _ _ e1 q _ ih =>
    rcases List.mem_cons.mp m with rfl | m
    · exact ⟨b, by simp, e1.symm, q⟩
    · obtain ⟨e', m', h1, h2⟩ := ih m
      exact ⟨e', by simp [m'], h1, h2⟩

theorem gone_same {a b : Answer} (h : a.gone = b.gone) : SameRec a b := by
  have h1 : a.gone.name = b.gone.name := by rw [h]
  have h2 : a.gone.type = b.gone.type := by rw [h]
  refine ⟨h1, h2, ?_⟩
  have : sameData a.gone b.gone := by
    rw [h]
    unfold sameData
    split <;> simp
  exact this

/-- In a chain where all records that are gone but one find callbacks that go on, that one is
reported. -/
theorem CInv.cExpireF_told (env : Env) (i : Nat) : ∀ (fuel k : Nat) {c c' : Core}, CInv c →
    Core.cExpireF env i fuel k c = .ok c' → ∃ evs, c'.log = c.log ++ evs ∧
      (∀ e ∈ (c.cache i).drop k, e.rr.ttl ≤ c.now.sec → e.q.isSome → env.KeepBut e.rr.gone →
        e.rr.gone ∈ answersOf evs) ∧
      (∀ b, env.KeepBut b → (∀ e ∈ (c.cache i).drop k, e.rr.ttl ≤ c.now.sec → e.rr.gone ≠ b) → NoEnd evs)
  | 0, _, _, _, _, e => by cases e
  | fuel + 1, k, c, c', h, hc => by
    unfold Core.cExpireF at hc
    cases hk : (c.cache i)[k]? with
    | none =>
      rw [hk] at hc
      cases hc
      have hd : (c.cache i).drop k = [] := List.drop_eq_nil_of_le (List.getElem?_eq_none_iff.mp hk)
      refine ⟨[], by simp, ?_, fun _ _ _ => .nil⟩
      intro e m
      rw [hd] at m
      cases m
    | some en =>
      have hmem : en ∈ c.cache i := List.mem_of_getElem? hk
      have hlt : k < (c.cache i).length := by
        rw [List.getElem?_eq_some_iff] at hk
        exact hk.1
      have hdrop : (c.cache i).drop k = en :: (c.cache i).drop (k + 1) := by
        rw [List.drop_eq_getElem_cons hlt]
        rw [List.getElem?_eq_getElem hlt] at hk
        cases hk
        rfl
      rw [hk] at hc
      dsimp only at hc
      split at hc
      · rename_i hexp
        have h1 : CInv { c with cache := upd c.cache i ((c.cache i).eraseIdx k) } := by
          refine h.withCache _ (fun j e' m => ?_) (fun j => ?_)
          · simp only [upd] at m
            split at m
            · rename_i hj
              exact ⟨e', hj ▸ List.mem_of_mem_eraseIdx m, rfl, rfl, rfl⟩
            · exact ⟨e', m, rfl, rfl, rfl⟩
          · simp only [upd]
            split
            · exact (h.cuniq i).sublist (List.eraseIdx_sublist _ _)
            · exact h.cuniq j
        have hq : ∀ q, en.q = some q → ∃ x, c.qs q = some x ∧ x.name = en.rr.name ∧ typeFits x.type en.rr :=
          fun q hq => h.cq i en q hmem hq
        obtain ⟨c1, ev1, e1, s1, r1, a1, q1, k1⟩ := h1.qAnswer env en hq
        rw [e1] at hc
        obtain ⟨ev2, l2, t2, n2⟩ := CInv.cExpireF_told env i fuel k s1.inv hc
        have hl1 : c1.log = c.log ++ ev1 := s1.log
        have hnow : c1.now = c.now := s1.now
        have hse : Core.seen { c with cache := upd c.cache i ((c.cache i).eraseIdx k) } en.rr = en.rr.gone := by
          unfold Core.seen
          rw [if_pos hexp]
          rfl
        have hkeep : ∀ b, env.KeepBut b → en.rr.gone ≠ b → NoEnd ev1 :=
          fun b hb hne => h1.qAnswer_keep hq e1 hl1 hexp hb hne
        have hback : ∀ {e : Cached}, e ∈ (c1.cache i).drop k → ∃ e' ∈ (c.cache i).drop (k + 1), e'.rr = e.rr := by
          intro e m
          have hr := r1 i
          simp only [Core.rrs, upd_same] at hr
          have m2 : e.rr ∈ ((c1.cache i).map (·.rr)).drop k := by
            rw [← List.map_drop]
            exact List.mem_map_of_mem m
          rw [hr, ← List.map_drop, drop_eraseIdx] at m2
          obtain ⟨e', m', h'⟩ := List.mem_map.mp m2
          exact ⟨e', m', h'⟩
        refine ⟨ev1 ++ ev2, by rw [l2, hl1, List.append_assoc], ?_, ?_⟩
        · intro e m he hqs hb
          rw [answersOf_append, List.mem_append]
          rw [hdrop] at m
          rcases List.mem_cons.mp m with rfl | m
          · left
            rw [a1, if_pos hqs, hse]
            simp
          · right
            have hpw : ¬ SameRec en.rr e.rr := by
              have := (h.cuniq i).sublist (List.drop_sublist k _)
              rw [hdrop] at this
              exact (List.pairwise_cons.mp this).1 e m
            have hne := hkeep _ hb fun hg => hpw (gone_same hg)
            have hql := (q1 hne i).drop k
            simp only [upd_same] at hql
            rw [drop_eraseIdx] at hql
            obtain ⟨e', m', f1, f2⟩ := hql.mem m
            rw [← f1]
            exact t2 e' m' (by rw [f1, hnow]; exact he) (f2 hqs) (by rw [f1]; exact hb)
        · intro b hb hall
          rw [NoEnd.append]
          refine ⟨hkeep b hb (hall en (by rw [hdrop]; simp) hexp), n2 b hb fun e m he => ?_⟩
          obtain ⟨e', m', f1⟩ := hback m
          rw [← f1]
          exact hall e' (by rw [hdrop]; simp [m']) (by rw [f1, ← hnow]; exact he)
      · rename_i hexp
        obtain ⟨evs, l, t, n⟩ := CInv.cExpireF_told env i fuel (k + 1) h hc
        refine ⟨evs, l, ?_, ?_⟩
        · intro e m he hqs hb
          rw [hdrop] at m
          rcases List.mem_cons.mp m with rfl | m
          · exact absurd he hexp
          · exact t e m he hqs hb
        · intro b hb hall
          exact n b hb fun e m he => hall e (by rw [hdrop]; simp [m]) he

theorem CInv.cExpire_told {c c' : Core} (h : CInv c) {env : Env} {i : Nat} {evs : List Event}
    (e : c.cExpire env i = .ok c') (hl : c'.log = c.log ++ evs) :
    (∀ e ∈ c.cache i, e.rr.ttl ≤ c.now.sec → e.q.isSome → env.KeepBut e.rr.gone → e.rr.gone ∈ answersOf evs) ∧
    (∀ b, env.KeepBut b → (∀ e ∈ c.cache i, e.rr.ttl ≤ c.now.sec → e.rr.gone ≠ b) → NoEnd evs) := by
  obtain ⟨evs', l, t, n⟩ := CInv.cExpireF_told env i _ 0 h e
  rw [l] at hl
  rw [← List.append_cancel_left hl]
  exact ⟨t, n⟩

end Mdns
