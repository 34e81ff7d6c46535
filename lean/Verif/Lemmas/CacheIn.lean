import Verif.Lemmas.Expire

/-!
# The expiry sweep and receiving an answer
-/

namespace Mdns

theorem sameData_refl (a : Answer) : sameData a a := by
  unfold sameData
  split <;> simp

theorem sameData_symm {a b : Answer} (ht : a.type = b.type) (h : sameData a b) : sameData b a := by
  unfold sameData at *
  rw [← ht]
  split at h <;> simp_all

theorem sameData_trans {a b c : Answer} (ht : a.type = b.type) (h : sameData a b) (h' : sameData b c) :
    sameData a c := by
  unfold sameData at *
  rw [← ht] at h'
  revert h h'
  generalize a.type = t
  intro h h'
  split at h <;> simp_all

theorem SameRec.refl (a : Answer) : SameRec a a := ⟨rfl, rfl, sameData_refl a⟩
theorem SameRec.symm {a b : Answer} (h : SameRec a b) : SameRec b a :=
  ⟨h.1.symm, h.2.1.symm, sameData_symm h.2.1 h.2.2⟩
theorem SameRec.trans {a b c : Answer} (h : SameRec a b) (h' : SameRec b c) : SameRec a c :=
  ⟨h.1.trans h'.1, h.2.1.trans h'.2.1, sameData_trans h.2.1 h.2.2 h'.2.2⟩

theorem sameData_ttl (a b : Answer) (t : Nat) : sameData { a with ttl := t } b ↔ sameData a b := by
  unfold sameData
  exact Iff.rfl

theorem SameRec.setTtl {a b : Answer} {t t' : Nat} :
    SameRec { a with ttl := t } { b with ttl := t' } ↔ SameRec a b := by
  unfold SameRec sameData
  exact Iff.rfl

/-! ### The sweep -/

theorem flatMap_congr' {α β : Type} {f g : α → List β} : ∀ {l : List α}, (∀ x ∈ l, f x = g x) → l.flatMap f = l.flatMap g
  | [], _ => rfl
  | a :: l, h => by
    rw [List.flatMap_cons, List.flatMap_cons, h a (by simp), flatMap_congr' fun x m => h x (by simp [m])]


/-- Chains behind the table are empty. -/
theorem CInv.beyond {c : Core} (h : CInv c) {i : Nat} (hi : lprime ≤ i) : c.cache i = [] := by
  apply List.eq_nil_iff_forall_not_mem.mpr
  intro e m
  have h1 := h.cbucket i e m
  have := bucket_lt e.rr.name lprime lprime_pos
  omega

theorem CInv.gc_go (env : Env) : ∀ (n : Nat) (c : Core), CInv c → n ≤ lprime →
    ∃ c' evs, Core.gc.go env n c = .ok c' ∧ Cbs c c' evs ∧
      (∀ j, c'.rrs j = if lprime - n ≤ j ∧ j < lprime then (c.rrs j).filter c.live else c.rrs j) ∧
      (answersOf evs).Sublist ((List.range' (lprime - n) n).flatMap fun i =>
        ((c.rrs i).filter fun a => !c.live a).map Answer.gone) ∧
      (NoEnd evs → (∀ j, QLe (if lprime - n ≤ j ∧ j < lprime then (c.cache j).filter fun e => c.live e.rr
          else c.cache j) (c'.cache j)) ∧
        ((List.range' (lprime - n) n).flatMap fun i =>
          (asked ((c.cache i).filter fun e => !c.live e.rr)).map Answer.gone).Sublist (answersOf evs)) ∧
      (env.KeepOnExpiry → NoEnd evs)
  | 0, c, h, _ => by
    have hj : ∀ j, ¬ (lprime - 0 ≤ j ∧ j < lprime) := by omega
    refine ⟨c, [], rfl, .refl h, fun j => by rw [if_neg (hj j)], by simp [answersOf], fun _ => ⟨fun j => ?_, by simp⟩,
      fun _ => .nil⟩
    rw [if_neg (hj j)]
    exact .refl _
  | n + 1, c, h, hn => by
    obtain ⟨c1, ev1, e1, s1, o1, r1, a1, q1, k1⟩ := h.cExpire env (lprime - (n + 1))
    obtain ⟨c2, ev2, e2, s2, r2, a2, q2, k2⟩ := CInv.gc_go env n c1 s1.inv (by omega)
    have hlive : c1.live = c.live := by
      funext a
      simp only [Core.live, s1.now]
    have hrange : List.range' (lprime - (n + 1)) (n + 1) = (lprime - (n + 1)) :: List.range' (lprime - n) n := by
      rw [List.range'_succ]
      congr 2
      omega
    have hin : ∀ j ∈ List.range' (lprime - n) n, j ≠ lprime - (n + 1) := by
      intro j m
      simp only [List.mem_range'] at m
      obtain ⟨x, _, rfl⟩ := m
      omega
    refine ⟨c2, ev1 ++ ev2, ?_, s1.trans h s2, ?_, ?_, ?_, ?_⟩
    · unfold Core.gc.go
      rw [e1]
      exact e2
    · intro j
      rw [r2 j]
      by_cases hj : j = lprime - (n + 1)
      · subst hj
        rw [if_neg (by omega), if_pos (by omega), r1]
      · rw [o1 j hj, hlive]
        by_cases hh : lprime - n ≤ j ∧ j < lprime
        · rw [if_pos hh, if_pos (by omega)]
        · rw [if_neg hh, if_neg (by omega)]
    · rw [answersOf_append, hrange, List.flatMap_cons]
      refine a1.append ?_
      rw [flatMap_congr' (g := fun i => ((c.rrs i).filter fun a => !c.live a).map Answer.gone)
        fun j m => by rw [o1 j (hin j m), hlive]] at a2
      exact a2
    · intro hne
      rw [NoEnd.append] at hne
      obtain ⟨qa, qb, qc⟩ := q1 hne.1
      obtain ⟨qd, qe⟩ := q2 hne.2
      refine ⟨fun j => ?_, ?_⟩
      · refine QLe.trans ?_ (qd j)
        rw [hlive]
        by_cases hj : j = lprime - (n + 1)
        · subst hj
          rw [if_pos (by omega), if_neg (by omega)]
          exact qb
        · by_cases hh : lprime - n ≤ j ∧ j < lprime
          · rw [if_pos hh, if_pos (by omega)]
            exact (qa j hj).filter _
          · rw [if_neg hh, if_neg (by omega)]
            exact qa j hj
      · rw [answersOf_append, hrange, List.flatMap_cons]
        refine qc.append (List.Sublist.trans ?_ qe)
        rw [hlive]
        have : ∀ (l : List Nat), (∀ j ∈ l, j ≠ lprime - (n + 1)) →
            (l.flatMap fun i => (asked ((c.cache i).filter fun e => !c.live e.rr)).map Answer.gone).Sublist
            (l.flatMap fun i => (asked ((c1.cache i).filter fun e => !c.live e.rr)).map Answer.gone) := by
          intro l
          induction l with
          | nil => simp
          | cons j l ih =>
            intro hl
            rw [List.flatMap_cons, List.flatMap_cons]
            exact ((((qa j (hl j (by simp))).filter fun a => !c.live a).asked).map _).append (ih fun x m => hl x (by simp [m]))
        exact this _ hin
    · intro hk
      rw [NoEnd.append]
      exact ⟨k1 hk, k2 hk⟩

/-- The sweep removes exactly the expired records. -/
theorem CInv.gc {c : Core} (h : CInv c) (env : Env) :
    ∃ c1 evs, c.gc env = .ok { c1 with expireall := c.now.sec + gcInterval } ∧ Cbs c c1 evs ∧
      (∀ j, c1.rrs j = (c.rrs j).filter c.live) ∧
      (answersOf evs).Sublist ((List.range lprime).flatMap fun i =>
        ((c.rrs i).filter fun a => !c.live a).map Answer.gone) ∧
      (NoEnd evs → (∀ j, QLe ((c.cache j).filter fun e => c.live e.rr) (c1.cache j)) ∧
        ((List.range lprime).flatMap fun i =>
          (asked ((c.cache i).filter fun e => !c.live e.rr)).map Answer.gone).Sublist (answersOf evs)) ∧
      (env.KeepOnExpiry → NoEnd evs) := by
  obtain ⟨c1, evs, e1, s1, r1, a1, q1, k1⟩ := CInv.gc_go env lprime c h (Nat.le_refl _)
  have hr : List.range' (lprime - lprime) lprime = List.range lprime := by
    rw [Nat.sub_self, List.range_eq_range']
  rw [hr] at a1 q1
  refine ⟨c1, evs, ?_, s1, fun j => ?_, a1, fun hn => ⟨fun j => ?_, (q1 hn).2⟩, k1⟩
  · unfold Core.gc
    rw [e1]
    simp only [s1.now]
  · rw [r1 j]
    split
    · rfl
    · have : c.cache j = [] := h.beyond (by omega)
      simp [Core.rrs, this]
  · have := (q1 hn).1 j
    split at this
    · exact this
    · have hb : c.cache j = [] := h.beyond (by omega)
      rw [hb] at this ⊢
      exact this

/-! ### Zeroed lifetimes -/

/-- The entry with lifetime 0 if its record is selected. -/
def zero (p : Answer → Bool) (e : Cached) : Cached := if p e.rr then { e with rr := { e.rr with ttl := 0 } } else e

/-- Set the lifetime of some entries of a chain to 0. -/
def Core.zeroed (c : Core) (i : Nat) (p : Answer → Bool) : Core :=
  { c with cache := upd c.cache i ((c.cache i).map (zero p)) }

theorem zero_name (p : Answer → Bool) (e : Cached) : (zero p e).rr.name = e.rr.name := by unfold zero; split <;> rfl
theorem zero_type (p : Answer → Bool) (e : Cached) : (zero p e).rr.type = e.rr.type := by unfold zero; split <;> rfl
theorem zero_q (p : Answer → Bool) (e : Cached) : (zero p e).q = e.q := by unfold zero; split <;> rfl
theorem zero_gone (p : Answer → Bool) (e : Cached) : (zero p e).rr.gone = e.rr.gone := by unfold zero; split <;> rfl
theorem zero_same (p : Answer → Bool) (a b : Cached) : SameRec (zero p a).rr (zero p b).rr ↔ SameRec a.rr b.rr := by
  unfold zero
  split <;> split <;> first | exact SameRec.setTtl | exact Iff.rfl
theorem zero_live (c : Core) (p : Answer → Bool) (e : Cached) : c.live (zero p e).rr = (c.live e.rr && !p e.rr) := by
  unfold zero
  split
  · rename_i h
    simp [h, Core.live]
  · rename_i h
    simp [h]

theorem CInv.zeroed {c : Core} (h : CInv c) (i : Nat) (p : Answer → Bool) : CInv (c.zeroed i p) := by
  refine h.withCache _ (fun j e m => ?_) (fun j => ?_)
  · simp only [upd] at m
    split at m
    · rename_i hj
      obtain ⟨e', m', rfl⟩ := List.mem_map.mp m
      exact ⟨e', hj ▸ m', zero_name p e', zero_type p e', zero_q p e'⟩
    · exact ⟨e, m, rfl, rfl, rfl⟩
  · simp only [upd]
    split
    · rw [List.pairwise_map]
      exact (h.cuniq i).imp fun hab hh => hab ((zero_same p _ _).mp hh)
    · exact h.cuniq j

theorem filter_rr (l : List Cached) (p : Answer → Bool) :
    (l.map (·.rr)).filter p = (l.filter fun e => p e.rr).map (·.rr) := List.filter_map ..

theorem filter_zero (c : Core) (p : Answer → Bool) (l : List Cached) :
    (l.map (zero p)).filter (fun e => c.live e.rr) = l.filter fun e => c.live e.rr && !p e.rr := by
  induction l with
  | nil => rfl
  | cons e l ih =>
    rw [List.map_cons, List.filter_cons, List.filter_cons, zero_live, ih]
    split
    · rename_i hh
      have : p e.rr = false := by simp at hh; exact hh.2
      congr 1
      unfold zero
      rw [this]
      rfl
    · rfl

theorem filter_zero_gone (c : Core) (p : Answer → Bool) (l : List Cached) :
    (((l.map (zero p)).map (·.rr)).filter fun a => !c.live a).map Answer.gone =
      ((l.map (·.rr)).filter fun a => !c.live a || p a).map Answer.gone := by
  induction l with
  | nil => rfl
  | cons e l ih =>
    rw [List.map_cons, List.map_cons, List.map_cons, List.filter_cons, List.filter_cons, zero_live]
    have : (!(c.live e.rr && !p e.rr)) = (!c.live e.rr || p e.rr) := by
      cases c.live e.rr <;> cases p e.rr <;> rfl
    rw [this]
    split
    · rw [List.map_cons, List.map_cons, ih, zero_gone]
    · exact ih

theorem asked_zero_gone (c : Core) (p : Answer → Bool) (l : List Cached) :
    (asked ((l.map (zero p)).filter fun e => !c.live e.rr)).map Answer.gone =
      (asked (l.filter fun e => !c.live e.rr || p e.rr)).map Answer.gone := by
  unfold asked
  induction l with
  | nil => rfl
  | cons e l ih =>
    rw [List.map_cons, List.filter_cons, List.filter_cons, zero_live]
    have : (!(c.live e.rr && !p e.rr)) = (!c.live e.rr || p e.rr) := by
      cases c.live e.rr <;> cases p e.rr <;> rfl
    rw [this]
    split
    · rw [List.filter_cons, List.filter_cons, zero_q]
      split
      · rw [List.map_cons, List.map_cons, List.map_cons, List.map_cons, ih, zero_gone]
      · exact ih
    · exact ih

/-- What removing the selected records of a chain, together with the expired ones, does. -/
structure Removed (env : Env) (i : Nat) (p : Answer → Bool) (c c' : Core) (evs : List Event) : Prop where
  cbs : Cbs c c' evs
  other : ∀ j, j ≠ i → c'.rrs j = c.rrs j
  rrs : c'.rrs i = (c.rrs i).filter fun a => c.live a && !p a
  ans : (answersOf evs).Sublist (((c.rrs i).filter fun a => !c.live a || p a).map Answer.gone)
  all : NoEnd evs → (∀ j, j ≠ i → QLe (c.cache j) (c'.cache j)) ∧
    QLe ((c.cache i).filter fun e => c.live e.rr && !p e.rr) (c'.cache i) ∧
    ((asked ((c.cache i).filter fun e => !c.live e.rr || p e.rr)).map Answer.gone).Sublist (answersOf evs)
  keep : env.KeepOnExpiry → NoEnd evs
  told : ∀ e ∈ c.cache i, (!c.live e.rr || p e.rr) = true → e.q.isSome → env.KeepBut e.rr.gone →
    e.rr.gone ∈ answersOf evs

theorem CInv.zap {c : Core} (h : CInv c) (env : Env) (i : Nat) (p : Answer → Bool) :
    ∃ c' evs, (c.zeroed i p).cExpire env i = .ok c' ∧ Removed env i p c c' evs := by
  obtain ⟨c', evs, e, s, o, r, a, q, k⟩ := (h.zeroed i p).cExpire env i
  have hlive : (c.zeroed i p).live = c.live := rfl
  have hch : (c.zeroed i p).cache i = (c.cache i).map (zero p) := by simp only [Core.zeroed, upd_same]
  have hot : ∀ j, j ≠ i → (c.zeroed i p).cache j = c.cache j := by
    intro j hj
    simp only [Core.zeroed, upd, hj, if_false]
  refine ⟨c', evs, e, ?_⟩
  constructor
  · exact { s with }
  · intro j hj
    rw [o j hj]
    unfold Core.rrs
    rw [hot j hj]
  · rw [r, hlive]
    unfold Core.rrs
    rw [hch, filter_rr, filter_zero, filter_rr]
  · rw [hlive] at a
    unfold Core.rrs at a
    rw [hch, filter_zero_gone] at a
    exact a
  · intro hn
    obtain ⟨qa, qb, qc⟩ := q hn
    rw [hlive] at qb qc
    rw [hch] at qb qc
    rw [filter_zero] at qb
    rw [asked_zero_gone] at qc
    exact ⟨fun j hj => by have := qa j hj; rw [hot j hj] at this; exact this, qb, qc⟩
  · exact k
  · intro en m hp hq hk
    have ht := ((h.zeroed i p).cExpire_told e s.log).1 (zero p en) (by rw [hch]; exact List.mem_map_of_mem m)
    rw [zero_gone, zero_q] at ht
    refine ht ?_ hq hk
    have hl := zero_live c p en
    have : c.live (zero p en).rr = false := by
      rw [hl]
      revert hp
      cases c.live en.rr <;> cases p en.rr <;> simp
    simp only [Core.live, decide_eq_false_iff_not, Nat.not_lt] at this
    exact this

theorem Core.flush_eq (env : Env) (c : Core) (r : Resource) : c.flush env r =
    if r.cls = 32768 + c.cls then
      (c.zeroed (bucket r.name lprime) fun a => a.is r.name r.type).cExpire env (bucket r.name lprime)
    else .ok c := rfl

/-! ### Deletion -/

/-- The first match is the only one. -/
theorem modify_eq_map {α : Type} (f : α → α) (p : α → Bool) : ∀ (l : List α) (k : Nat),
    l.findIdx? p = some k → l.Pairwise (fun a b => ¬ (p a = true ∧ p b = true)) →
    l.modify k f = l.map fun e => if p e then f e else e
  | [], _, h, _ => by simp at h
  | a :: l, k, h, hp => by
    rw [List.findIdx?_cons] at h
    obtain ⟨hp1, hp2⟩ := List.pairwise_cons.mp hp
    split at h
    · rename_i ha
      cases h
      rw [List.modify_zero_cons, List.map_cons, if_pos ha]
      congr 1
      symm
      have : ∀ x ∈ l, (if p x = true then f x else x) = id x := by
        intro x m
        rw [if_neg fun hx => hp1 x m ⟨ha, hx⟩]
        rfl
      rw [List.map_congr_left this, List.map_id]
    · rename_i ha
      cases hl : l.findIdx? p with
      | none => rw [hl] at h; simp at h
      | some k' =>
        rw [hl] at h
        simp only [Option.map_some, Option.some.injEq] at h
        subst h
        rw [List.modify_succ_cons, List.map_cons, if_neg ha, modify_eq_map f p l k' hl hp2]

/-- The entry is the record `r`. -/
def hit (r : Resource) (a : Answer) : Bool := a.is r.name r.type && aMatch r a

theorem hit_iff {r : Resource} (hr : r.WF) (src : Addr) (ttl : Nat) (a : Answer) :
    hit r a = true ↔ SameRec (Core.newEntry r src ttl) a := by
  unfold hit
  rw [Bool.and_eq_true, aMatch_iff r hr src ttl]
  constructor
  · exact fun h => h.2
  · intro h
    refine ⟨?_, h⟩
    rw [is_iff]
    refine ⟨h.1.symm.trans (newEntry_name r src ttl), .inl ?_⟩
    rw [← h.2.1, newEntry_type]

theorem CInv.hit_once {c : Core} (h : CInv c) {r : Resource} (hr : r.WF) (i : Nat) :
    (c.cache i).Pairwise fun a b => ¬ (hit r a.rr = true ∧ hit r b.rr = true) := by
  refine (h.cuniq i).imp ?_
  rintro a b hab ⟨h1, h2⟩
  have s : Addr := ⟨.v4 ip4Zero, 0⟩
  rw [hit_iff hr s 0] at h1 h2
  exact hab (h1.symm.trans h2)

theorem CInv.delete {c : Core} (h : CInv c) (env : Env) {r : Resource} (hr : r.WF) (fuel : Nat) :
    ∃ c' evs, Core.deleteF env r (bucket r.name lprime) (fuel + 2) c = .ok c' ∧
      (((c.rrs (bucket r.name lprime)).any (hit r) = true ∧ Removed env (bucket r.name lprime) (hit r) c c' evs) ∨
        (c.rrs (bucket r.name lprime)).any (hit r) = false ∧ c' = c ∧ evs = []) := by
  have hany : ∀ c : Core, (c.cache (bucket r.name lprime)).findIdx? (fun e => hit r e.rr) = none ↔
      (c.rrs (bucket r.name lprime)).any (hit r) = false := by
    intro c
    rw [List.findIdx?_eq_none_iff, Core.rrs, List.any_map, List.any_eq_false]
    simp [Function.comp]
  cases hf : (c.cache (bucket r.name lprime)).findIdx? (fun e => hit r e.rr) with
  | none =>
    refine ⟨c, [], ?_, .inr ⟨(hany c).mp hf, rfl, rfl⟩⟩
    unfold Core.deleteF
    show (match (c.cache (bucket r.name lprime)).findIdx? (fun e => hit r e.rr) with
      | none => _
      | some k => _) = _
    rw [hf]
  | some k =>
    have hm : (c.modEntry (bucket r.name lprime) k fun e => { e with rr := { e.rr with ttl := 0 } }) =
        c.zeroed (bucket r.name lprime) (hit r) := by
      unfold Core.modEntry Core.zeroed
      rw [modify_eq_map _ (fun e => hit r e.rr) _ k hf (h.hit_once hr _)]
      rfl
    obtain ⟨c', evs, e, hz⟩ := h.zap env (bucket r.name lprime) (hit r)
    have h2 : (c'.cache (bucket r.name lprime)).findIdx? (fun e => hit r e.rr) = none := by
      rw [hany, hz.rrs, List.any_eq_false]
      intro a m
      simp only [List.mem_filter, Bool.and_eq_true, Bool.not_eq_true'] at m
      simp [m.2.2]
    refine ⟨c', evs, ?_, .inl ⟨?_, hz⟩⟩
    · unfold Core.deleteF
      show (match (c.cache (bucket r.name lprime)).findIdx? (fun e => hit r e.rr) with
        | none => _
        | some k => _) = _
      rw [hf]
      simp only [hm, e]
      unfold Core.deleteF
      show (match (c'.cache (bucket r.name lprime)).findIdx? (fun e => hit r e.rr) with
        | none => _
        | some k => _) = _
      rw [h2]
    · cases hb : (c.rrs (bucket r.name lprime)).any (hit r) with
      | true => rfl
      | false =>
        rw [(hany c).mpr hb] at hf
        exact absurd hf (by simp)

theorem CInv.delete' {c : Core} (h : CInv c) (env : Env) {r : Resource} (hr : r.WF) :
    ∃ c' evs, Core.deleteF env r (bucket r.name lprime) ((c.chain r.name).length + 1) c = .ok c' ∧
      (((c.rrs (bucket r.name lprime)).any (hit r) = true ∧ Removed env (bucket r.name lprime) (hit r) c c' evs) ∨
        (c.rrs (bucket r.name lprime)).any (hit r) = false ∧ c' = c ∧ evs = []) := by
  cases hl : (c.chain r.name).length with
  | succ n => exact h.delete env hr n
  | zero =>
    have hnil : c.cache (bucket r.name lprime) = [] := List.eq_nil_of_length_eq_zero hl
    refine ⟨c, [], ?_, .inr ⟨by simp [Core.rrs, hnil], rfl, rfl⟩⟩
    unfold Core.deleteF
    rw [hnil]
    rfl

/-! ### Insertion -/

/-- The lifetime given to a new or refreshed entry. -/
def Core.expiry (c : Core) (r : Resource) : Nat := c.now.sec + r.ttl / 2 + 8

/-- Replace a chain. -/
def Core.setChain (c : Core) (i : Nat) (l : List Cached) : Core := { c with cache := upd c.cache i l }

/-- What entering an answer that does not end a record does. -/
inductive Inserted (env : Env) (r : Resource) (src : Addr) (c c' : Core) : List Event → Prop
  | refresh : (c.rrs (bucket r.name lprime)).any (hit r) = true →
    c' = c.setChain (bucket r.name lprime) ((c.chain r.name).map fun e =>
      if hit r e.rr then { e with rr := { e.rr with ttl := c.expiry r } } else e) →
    Inserted env r src c c' []
  | silent : (c.rrs (bucket r.name lprime)).any (hit r) = false → callback c.log r.name r.type = none →
    c' = c.setChain (bucket r.name lprime)
      ({ rr := Core.newEntry r src (c.expiry r), q := none } :: c.chain r.name) →
    Inserted env r src c c' []
  | told (q cb : Nat) (rest : List Event) : (c.rrs (bucket r.name lprime)).any (hit r) = false →
    callback c.log r.name r.type = some cb →
    c'.rrs (bucket r.name lprime) = Core.newEntry r src (c.expiry r) :: c.rrs (bucket r.name lprime) →
    (∀ j, j ≠ bucket r.name lprime → c'.rrs j = c.rrs j) → answersOf rest = [] →
    (∀ h t, Event.unregistered h t ∈ rest →
      (env.answer (c.log ++ [.answer q cb (Core.newEntry r src (c.expiry r))])).stop = true ∧
      h = r.name ∧ (t = r.type ∨ t = 255)) →
    ((env.answer (c.log ++ [.answer q cb (Core.newEntry r src (c.expiry r))])).stop = true →
      (∀ t cb', (r.name, t, cb') ∈ (env.answer (c.log ++ [.answer q cb (Core.newEntry r src (c.expiry r))])).reg →
        t ≠ 255) → Event.unregistered r.name r.type ∈ rest ∧ callback c'.log r.name r.type = none) →
    Inserted env r src c c' (.answer q cb (Core.newEntry r src (c.expiry r)) :: rest)

/-- Registering queries other than ANY leaves the query of an entry alone that has one of
exactly its type. -/
theorem CInv.queryOn_entry {c c' : Core} (h : CInv c) {host : Bytes} {type cb : Nat}
    (hc : c.query host type (some cb) = .ok c') {i k q : Nat} {e : Cached} {x : Query}
    (he : (c.cache i)[k]? = some e) (hq : e.q = some q) (hx : c.qs q = some x) (ht : x.type = e.rr.type)
    (hn : ¬ (host = e.rr.name ∧ type = 255)) : (c'.cache i)[k]? = some e := by
  obtain ⟨o, h1, h2, h3⟩ := h.qFind host type
  cases o with
  | none =>
    rw [query_new h1] at hc
    cases hc
    obtain ⟨x', hx', e1, _⟩ := h.cq i e q (List.mem_of_getElem? he) hq
    rw [hx] at hx'
    cases hx'
    simp only [Core.addQuery, Core.assoc, Core.chain, upd]
    split
    · rename_i hi
      rw [List.getElem?_map, ← hi, he]
      simp only [Option.map_some, Option.some.injEq]
      rw [if_neg]
      rw [is_iff]
      rintro ⟨f1, f2 | f2⟩
      · exact h3 rfl q x hx ⟨e1.trans f1, ht.trans f2.symm⟩
      · exact hn ⟨f1.symm, f2⟩
    · exact he
  | some q' =>
    obtain ⟨x', hx', rfl, rfl⟩ := h2 q' rfl
    unfold Core.query at hc
    rw [h1] at hc
    simp only [hx'] at hc
    cases hc
    exact he

theorem CInv.register_entry {i k q : Nat} {e : Cached} : ∀ (l : List (Bytes × Nat × Nat)) {c c' : Core} {x : Query},
    CInv c → c.register l = .ok c' → (c.cache i)[k]? = some e → e.q = some q → c.qs q = some x →
    x.type = e.rr.type → (∀ t cb', (e.rr.name, t, cb') ∈ l → t ≠ 255) → (c'.cache i)[k]? = some e
  | [], c, c', x, _, hc, he, _, _, _, _ => by cases hc; exact he
  | (host, type, cb) :: l, c, c', x, h, hc, he, hq, hx, ht, hn => by
    obtain ⟨c1, e1, s1, _⟩ := h.queryOn host type cb
    unfold Core.register at hc
    rw [e1] at hc
    have h1 := h.queryOn_entry e1 he hq hx ht (by
      rintro ⟨rfl, rfl⟩
      exact hn 255 cb (by simp) rfl)
    obtain ⟨x', hx', _, f2⟩ := s1.qs_ex hx
    exact CInv.register_entry l s1.inv hc h1 hq hx' (f2.trans ht) fun t cb' m => hn t cb' (by simp [m])

theorem CInv.insert {c : Core} (h : CInv c) (env : Env) {r : Resource} (hr : r.WF) (src : Addr) :
    ∃ c' evs, c.insert env r src = .ok c' ∧ Cbs c c' evs ∧ Inserted env r src c c' evs := by
  have hany : (c.cache (bucket r.name lprime)).findIdx? (fun e => hit r e.rr) = none ↔
      (c.rrs (bucket r.name lprime)).any (hit r) = false := by
    rw [List.findIdx?_eq_none_iff, Core.rrs, List.any_map, List.any_eq_false]
    simp [Function.comp]
  have hins : c.insert env r src =
      match (c.cache (bucket r.name lprime)).findIdx? (fun e => hit r e.rr) with
      | some k => .ok (c.modEntry (bucket r.name lprime) k fun e => { e with rr := { e.rr with ttl := c.expiry r } })
      | none =>
        match c.qFind r.name r.type with
        | .ok q =>
          match q with
          | none => .ok (c.setChain (bucket r.name lprime)
              ({ rr := Core.newEntry r src (c.expiry r), q := q } :: c.cache (bucket r.name lprime)))
          | some q0 =>
            match (c.setChain (bucket r.name lprime)
              ({ rr := Core.newEntry r src (c.expiry r), q := q } :: c.cache (bucket r.name lprime))).callAnswer
                env q0 (Core.newEntry r src (c.expiry r)) with
            | .ok (stop, c) =>
              if stop then
                match (c.cache (bucket r.name lprime)).head? with
                | some { q := some q', .. } => c.qDone q'
                | _ => .ub
              else .ok c
            | .ub => .ub
            | .hang => .hang
        | .ub => .ub
        | .hang => .hang := rfl
  rw [hins]
  cases hf : (c.cache (bucket r.name lprime)).findIdx? (fun e => hit r e.rr) with
  | some k =>
    have hm : (c.modEntry (bucket r.name lprime) k fun e => { e with rr := { e.rr with ttl := c.expiry r } }) =
        (c.setChain (bucket r.name lprime) ((c.chain r.name).map fun e =>
          if hit r e.rr then { e with rr := { e.rr with ttl := c.expiry r } } else e)) := by
      unfold Core.modEntry
      rw [modify_eq_map _ (fun e => hit r e.rr) _ k hf (h.hit_once hr _)]
      rfl
    have hsame : ∀ a b : Cached, SameRec
        (if hit r a.rr = true then { a with rr := { a.rr with ttl := c.expiry r } } else a).rr
        (if hit r b.rr = true then { b with rr := { b.rr with ttl := c.expiry r } } else b).rr ↔ SameRec a.rr b.rr := by
      intro a b
      split <;> split <;> first | exact SameRec.setTtl | exact Iff.rfl
    have hinv : CInv (c.setChain (bucket r.name lprime) ((c.chain r.name).map fun e =>
          if hit r e.rr then { e with rr := { e.rr with ttl := c.expiry r } } else e)) := by
      refine h.withCache _ (fun j e m => ?_) (fun j => ?_)
      · simp only [upd] at m
        split at m
        · rename_i hj
          obtain ⟨e', m', rfl⟩ := List.mem_map.mp m
          exact ⟨e', hj ▸ m', by split <;> rfl, by split <;> rfl, by split <;> rfl⟩
        · exact ⟨e, m, rfl, rfl, rfl⟩
      · simp only [upd]
        split
        · rw [List.pairwise_map]
          exact (h.cuniq _).imp fun hab hh => hab ((hsame _ _).mp hh)
        · exact h.cuniq j
    refine ⟨_, [], by simp only [hm], { Cbs.refl h with inv := hinv }, .refresh ?_ rfl⟩
    cases hb : (c.rrs (bucket r.name lprime)).any (hit r) with
    | true => rfl
    | false =>
      rw [hany.mpr hb] at hf
      exact absurd hf (by simp)
  | none =>
    have hno := hany.mp hf
    obtain ⟨o, h1, h2, h3⟩ := h.qFind r.name r.type
    -- the state with the new entry
    have hinv : ∀ q, (∀ q0, q = some q0 → ∃ x, c.qs q0 = some x ∧ x.name = r.name ∧ x.type = r.type) →
        CInv (c.setChain (bucket r.name lprime)
          ({ rr := Core.newEntry r src (c.expiry r), q := q } :: c.cache (bucket r.name lprime))) := by
      intro q hq
      refine { h with cbucket := ?_, cq := ?_, cuniq := ?_ }
      · intro j e m
        simp only [Core.setChain, upd] at m
        split at m
        · rename_i hj
          rcases List.mem_cons.mp m with rfl | m
          · simp only [newEntry_name]
            exact hj.symm
          · exact hj ▸ h.cbucket _ e m
        · exact h.cbucket j e m
      · intro j e q0 m hq0
        simp only [Core.setChain, upd] at m
        split at m
        · rcases List.mem_cons.mp m with rfl | m
          · obtain ⟨x, hx, e1, e2⟩ := hq q0 hq0
            refine ⟨x, hx, ?_, .inl ?_⟩
            · simp only [newEntry_name]
              exact e1
            · simp only [newEntry_type]
              exact e2
          · exact h.cq _ e q0 m hq0
        · exact h.cq j e q0 m hq0
      · intro j
        simp only [Core.setChain, upd]
        split
        · rw [List.pairwise_cons]
          refine ⟨fun e m hs => ?_, h.cuniq _⟩
          have := (hit_iff hr src (c.expiry r) e.rr).mpr hs
          have h4 := List.any_eq_false.mp hno e.rr (List.mem_map_of_mem m)
          exact h4 this
        · exact h.cuniq j
    cases o with
    | none =>
      have hcb : callback c.log r.name r.type = none := by
        cases hc : callback c.log r.name r.type with
        | none => rfl
        | some cb =>
          obtain ⟨q, x, hx, e1, e2, _⟩ := (h.tcb _ _ _).mp hc
          exact absurd ⟨e1, e2⟩ (h3 rfl q x hx)
      refine ⟨_, [], by simp only [h1], { Cbs.refl h with inv := hinv none (by simp) }, .silent hno hcb rfl⟩
    | some q =>
      obtain ⟨x, hx, e1, e2⟩ := h2 q rfl
      have hcb : callback c.log r.name r.type = some x.cb := (h.tcb _ _ _).mpr ⟨q, x, hx, e1, e2, rfl⟩
      have hi := hinv (some q) (by rintro q0 ⟨⟩; exact ⟨x, hx, e1, e2⟩)
      simp only [h1]
      generalize hc1 : c.setChain (bucket r.name lprime)
          ({ rr := Core.newEntry r src (c.expiry r), q := some q } :: c.cache (bucket r.name lprime)) = c1 at hi
      have hc1q : c1.qs = c.qs := by rw [← hc1]; rfl
      have hc1l : c1.log = c.log := by rw [← hc1]; rfl
      have hc1n : c1.now = c.now := by rw [← hc1]; rfl
      have hseen : c1.seen (Core.newEntry r src (c.expiry r)) = Core.newEntry r src (c.expiry r) := by
        unfold Core.seen
        rw [if_neg]
        rw [newEntry_ttl, hc1n]
        unfold Core.expiry
        omega
      have hself : c1.cache (bucket r.name lprime) =
          { rr := Core.newEntry r src (c.expiry r), q := some q } :: c.cache (bucket r.name lprime) := by
        rw [← hc1]
        simp only [Core.setChain, upd_same]
      have hrr : c1.rrs (bucket r.name lprime) =
          Core.newEntry r src (c.expiry r) :: c.rrs (bucket r.name lprime) := by
        unfold Core.rrs
        rw [hself]
        rfl
      have hoth : ∀ j, j ≠ bucket r.name lprime → c1.rrs j = c.rrs j := by
        intro j hj
        unfold Core.rrs
        rw [← hc1]
        simp only [Core.setChain, upd, hj, if_false]
      have s0 : Cbs c c1 [] := { Cbs.refl h with
        inv := hi, rest := by rw [← hc1]; rfl, log := by rw [hc1l]; simp
        kept := fun q x hx => .inl ⟨x.cb, by rw [hc1q]; exact hx⟩
        new := fun q x hx => .inl ⟨x.cb, by rw [hc1q] at hx; exact hx⟩
        chk := .inl (by rw [← hc1]; rfl), nextq := by rw [← hc1]; exact Nat.le_refl _
        qlist := fun _ => ⟨[], by rw [← hc1]; rfl⟩ }
      obtain ⟨c2, ev2, f1, f2, f3, f4⟩ := hi.callAnswer env (rr := Core.newEntry r src (c.expiry r))
        (by rw [hc1q]; exact hx) (by rw [newEntry_name]; exact e1) (.inl (by rw [newEntry_type]; exact e2))
      rw [hseen, hc1l] at f1 f3 f4
      rw [f1]
      have s1 := s0.trans h (f2.cbs (by rw [f3, hc1l]))
      rw [List.nil_append] at s1
      have hno2 : NoEnd ev2 := by rw [f4]; exact .registered _
      have hans2 : answersOf ev2 = [] := by rw [f4]; exact answersOf_registered _
      cases hs : (env.answer (c.log ++ [.answer q x.cb (Core.newEntry r src (c.expiry r))])).stop with
      | false =>
        refine ⟨c2, _, rfl, s1, .told q x.cb ev2 hno hcb ?_ ?_ hans2 ?_ ?_⟩
        · rw [f2.rrs, hrr]
        · intro j hj
          rw [f2.rrs, hoth j hj]
        · intro a b m
          exact absurd m (hno2 a b)
        · intro hh
          rw [hs] at hh
          exact absurd hh (by simp)
      | true =>
        have hq2 := f2.qle (bucket r.name lprime)
        rw [hself] at hq2
        cases hc2 : c2.cache (bucket r.name lprime) with
        | nil =>
          rw [hc2] at hq2
          cases hq2
        | cons e l =>
          rw [hc2] at hq2
          cases hq2 with
          | cons g1 g2 g3 =>
            have g2 := g2 rfl
            obtain ⟨rr', q'⟩ := e
            cases q' with
            | none => simp at g2
            | some q' =>
              obtain ⟨x', hx', y1, y2⟩ := f2.inv.cq (bucket r.name lprime) ⟨rr', some q'⟩ q' (by rw [hc2]; simp) rfl
              obtain ⟨c3, k1, k2, k3⟩ := f2.inv.qDone_cbs hx'
              have y1' : x'.name = r.name := by
                rw [y1]
                simp only at g1
                rw [← g1, newEntry_name]
              have y2' : x'.type = r.type ∨ x'.type = 255 := by
                rcases y2 with y2 | y2
                · left
                  rw [y2]
                  simp only at g1
                  rw [← g1, newEntry_type]
                · exact .inr y2
              refine ⟨c3, _, ?_, s1.trans h k2, ?_⟩
              · simp only [if_true, hc2, List.head?_cons]
                exact k1
              · refine .told q x.cb (ev2 ++ [.unregistered x'.name x'.type]) hno hcb ?_ ?_ ?_ ?_ ?_
                · rw [k3, f2.rrs, hrr]
                · intro j hj
                  rw [k3, f2.rrs, hoth j hj]
                · rw [answersOf_append, hans2]
                  rfl
                · intro a b m
                  rcases List.mem_append.mp m with m | m
                  · exact absurd m (hno2 a b)
                  · simp only [List.mem_singleton, Event.unregistered.injEq] at m
                    obtain ⟨rfl, rfl⟩ := m
                    exact ⟨hs, y1', y2'⟩
                · intro _ hany
                  have hxc : c1.qs q = some x := by rw [hc1q]; exact hx
                  have hreg : ∃ c1' : Core, CInv c1' ∧ c1'.cache = c1.cache ∧ c1'.qs = c1.qs ∧ c1'.register
                      (env.answer (c.log ++ [.answer q x.cb (Core.newEntry r src (c.expiry r))])).reg = .ok c2 := by
                    have hh : c1.callAnswer env q (Core.newEntry r src (c.expiry r)) =
                        match ({ c1 with log := c1.log ++ [.answer q x.cb (c1.seen (Core.newEntry r src (c.expiry r)))] } :
                          Core).register
                          (env.answer (c1.log ++ [.answer q x.cb (c1.seen (Core.newEntry r src (c.expiry r)))])).reg with
                        | .ok c' => .ok
                          ((env.answer (c1.log ++ [.answer q x.cb (c1.seen (Core.newEntry r src (c.expiry r)))])).stop, c')
                        | .ub => .ub
                        | .hang => .hang := by
                      unfold Core.callAnswer
                      rw [hxc]
                      rfl
                    have hi' : CInv { c1 with log := c1.log ++
                        [.answer q x.cb (c1.seen (Core.newEntry r src (c.expiry r)))] } := by
                      rw [hseen]
                      exact hi.addAnswer hxc (by rw [newEntry_name]; exact e1) (.inl (by rw [newEntry_type]; exact e2))
                    rw [f1] at hh
                    refine ⟨_, hi', rfl, rfl, ?_⟩
                    rw [hseen, hc1l] at hh
                    rw [hseen, hc1l]
                    split at hh
                    · rename_i heq
                      cases hh
                      exact heq
                    · exact absurd hh (by simp)
                    · exact absurd hh (by simp)
                  obtain ⟨c1', hi', hca, hqa, hreg⟩ := hreg
                  have hent := CInv.register_entry (i := bucket r.name lprime) (k := 0) (q := q)
                    (e := { rr := Core.newEntry r src (c.expiry r), q := some q }) _ hi' hreg
                    (by rw [hca, hself]; rfl) rfl (by rw [hqa]; exact hxc)
                    (by simp only [newEntry_type]; exact e2)
                    (by simp only [newEntry_name]; exact hany)
                  rw [hc2] at hent
                  simp only [List.getElem?_cons_zero, Option.some.injEq, Cached.mk.injEq] at hent
                  obtain ⟨_, rfl⟩ := hent
                  obtain ⟨x2, hx2, z1, z2⟩ := f2.qs_ex hxc
                  rw [hx'] at hx2
                  cases hx2
                  rw [z1, z2, e1, e2]
                  refine ⟨by simp, ?_⟩
                  rw [k2.log, z1, z2, e1, e2, callback_append_unregistered, if_pos ⟨rfl, rfl⟩]

/-! ### An answer is received -/

/-- The flush. -/
inductive Flushed (env : Env) (r : Resource) (c c' : Core) : List Event → Prop
  | no : r.cls ≠ 32768 + c.cls → c' = c → Flushed env r c c' []
  | yes {evs : List Event} : r.cls = 32768 + c.cls →
    Removed env (bucket r.name lprime) (fun a => a.is r.name r.type) c c' evs → Flushed env r c c' evs

/-- The rest. -/
inductive Entered (env : Env) (r : Resource) (src : Addr) (c c' : Core) : List Event → Prop
  | goodbye {evs : List Event} : r.ttl = 0 → (c.rrs (bucket r.name lprime)).any (hit r) = true →
    Removed env (bucket r.name lprime) (hit r) c c' evs → Entered env r src c c' evs
  | nothing : r.ttl = 0 → (c.rrs (bucket r.name lprime)).any (hit r) = false → c' = c → Entered env r src c c' []
  | insert {evs : List Event} : r.ttl ≠ 0 → Inserted env r src c c' evs → Entered env r src c c' evs

theorem CInv.cacheIn {c : Core} (h : CInv c) (env : Env) {r : Resource} (hr : r.WF) (src : Addr) :
    ∃ c1 c' ev1 ev2, c.cacheIn env r src = .ok c' ∧ Cbs c c' (ev1 ++ ev2) ∧ Cbs c c1 ev1 ∧ Cbs c1 c' ev2 ∧
      Flushed env r c c1 ev1 ∧ Entered env r src c1 c' ev2 := by
  have hfl : ∃ c1 ev1, c.flush env r = .ok c1 ∧ Cbs c c1 ev1 ∧ Flushed env r c c1 ev1 := by
    rw [Core.flush_eq]
    by_cases hc : r.cls = 32768 + c.cls
    · obtain ⟨c1, ev1, e, hz⟩ := h.zap env (bucket r.name lprime) fun a => a.is r.name r.type
      exact ⟨c1, ev1, by rw [if_pos hc]; exact e, hz.cbs, .yes hc hz⟩
    · exact ⟨c, [], by rw [if_neg hc], .refl h, .no hc rfl⟩
  obtain ⟨c1, ev1, e1, s1, f1⟩ := hfl
  have he : ∃ c' ev2, (if r.ttl = 0 then Core.deleteF env r (bucket r.name lprime) ((c1.chain r.name).length + 1) c1
      else c1.insert env r src) = .ok c' ∧ Cbs c1 c' ev2 ∧ Entered env r src c1 c' ev2 := by
    by_cases ht : r.ttl = 0
    · obtain ⟨c', ev2, e2, hd⟩ := s1.inv.delete' env hr
      rcases hd with ⟨ha, hz⟩ | ⟨ha, rfl, rfl⟩
      · exact ⟨c', ev2, by rw [if_pos ht]; exact e2, hz.cbs, .goodbye ht ha hz⟩
      · exact ⟨c', [], by rw [if_pos ht]; exact e2, .refl s1.inv, .nothing ht ha rfl⟩
    · obtain ⟨c', ev2, e2, s2, i2⟩ := s1.inv.insert env hr src
      exact ⟨c', ev2, by rw [if_neg ht]; exact e2, s2, .insert ht i2⟩
  obtain ⟨c', ev2, e2, s2, f2⟩ := he
  refine ⟨c1, c', ev1, ev2, ?_, s1.trans h s2, s1, s2, f1, f2⟩
  unfold Core.cacheIn
  rw [e1]
  exact e2

end Mdns
