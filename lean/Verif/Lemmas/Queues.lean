import Verif.Model.Queues

/-!
# The two representations of the queues agree

`RQ p l` says that the pointers `p` represent the lists `l`.  Every operation that
succeeds on the lists succeeds on the pointers, with the same result.
-/

namespace Mdns

/-- A chain of links. -/
def Chain (link : Nat → Option (Option Nat)) : Option Nat → List Nat → Prop
  | h, [] => h = none
  | h, r :: rs => h = some r ∧ ∃ x, link r = some x ∧ Chain link x rs

/-- The pointers represent the lists. -/
structure RQ (p : Ptrs) (l : Lists) : Prop where
  size : p.size = l.size
  live : ∀ r, (p.link r).isSome = l.live r
  chain : ∀ w, Chain p.link (p.head w) (l.q w)
  nodup : ∀ w, (l.q w).Nodup
  disj : ∀ v w r, r ∈ l.q v → r ∈ l.q w → v = w
  bound : ∀ r, l.live r → r < l.size

theorem Chain.link_congr {f g : Nat → Option (Option Nat)} {h : Option Nat} {l : List Nat}
    (c : Chain f h l) (e : ∀ r ∈ l, f r = g r) : Chain g h l := by
  induction l generalizing h with
  | nil => exact c
  | cons r rs ih =>
    obtain ⟨h1, x, h2, h3⟩ := c
    exact ⟨h1, x, by rw [← e r (by simp)]; exact h2, ih h3 fun s hs => e s (by simp [hs])⟩

theorem Chain.live {f : Nat → Option (Option Nat)} {h : Option Nat} {l : List Nat}
    (c : Chain f h l) : ∀ r ∈ l, (f r).isSome := by
  induction l generalizing h with
  | nil => simp
  | cons r rs ih =>
    obtain ⟨_, x, h2, h3⟩ := c
    intro s hs
    rcases List.mem_cons.mp hs with rfl | hs
    · simp [h2]
    · exact ih h3 s hs

theorem Chain.head {f : Nat → Option (Option Nat)} {h : Option Nat} {l : List Nat}
    (c : Chain f h l) : h = l.head? := by
  cases l with
  | nil => exact c
  | cons r rs => exact c.1

theorem nodup_bound : ∀ (n : Nat) (l : List Nat), l.Nodup → (∀ r ∈ l, r < n) → l.length ≤ n
  | 0, l, _, h => by
    cases l with
    | nil => simp
    | cons r rs => exact absurd (h r (by simp)) (by simp)
  | n + 1, l, nd, h => by
    have h1 := nodup_bound n (l.erase n) (nd.erase n) (by
      intro r hr
      have := h r (List.mem_of_mem_erase hr)
      have : r ≠ n := fun e => by subst e; exact (nd.mem_erase_iff.mp hr).1 rfl
      omega)
    have h2 : l.length ≤ (l.erase n).length + 1 := by
      rw [List.length_erase]
      split <;> omega
    omega

namespace RQ

variable {p : Ptrs} {l : Lists}

theorem mem_live (h : RQ p l) {w : W} {r : Nat} (m : r ∈ l.q w) : l.live r := by
  rw [← h.live]
  exact (h.chain w).live r m

theorem length_le (h : RQ p l) (w : W) : (l.q w).length ≤ p.size := by
  rw [h.size]
  exact nodup_bound _ _ (h.nodup w) fun r m => h.bound r (h.mem_live m)

/-- Changing links of records outside all queues changes nothing. -/
theorem link_of (h : RQ p l) {f : Nat → Option (Option Nat)}
    (same : ∀ w, ∀ r ∈ l.q w, p.link r = f r) (live : ∀ r, (f r).isSome = l.live r) :
    RQ { p with link := f } l where
  size := h.size
  live := live
  chain w := (h.chain w).link_congr (same w)
  nodup := h.nodup
  disj := h.disj
  bound := h.bound

theorem alloc (h : RQ p l) :
    (QOps.alloc p).1 = (QOps.alloc l).1 ∧ RQ (QOps.alloc p).2 (QOps.alloc l).2 := by
  refine ⟨h.size, ?_⟩
  have nl : ∀ w, ∀ r ∈ l.q w, r ≠ p.size := fun w r m e => by
    have := h.bound r (h.mem_live m)
    rw [e, h.size] at this
    omega
  constructor
  · show p.size + 1 = l.size + 1
    rw [h.size]
  · intro r
    show (upd p.link p.size (some none) r).isSome = if r = l.size then true else l.live r
    rw [← h.size]
    by_cases e : r = p.size
    · simp [e]
    · simp [upd_other _ _ _ _ e, e, h.live]
  · intro w
    exact (h.chain w).link_congr fun r m => (upd_other _ _ _ _ (nl w r m)).symm
  · exact h.nodup
  · exact h.disj
  · intro r hr
    show r < l.size + 1
    have hr : (if r = l.size then true else l.live r) = true := hr
    split at hr
    · omega
    · exact Nat.lt_succ_of_lt (h.bound r hr)

theorem not_queued {r : Nat} (hq : l.queued r = false) (w : W) : r ∉ l.q w := by
  simp [Lists.queued] at hq
  cases w
  · exact hq.1
  · exact hq.2.1
  · exact hq.2.2.1
  · exact hq.2.2.2

theorem free (h : RQ p l) {r : Nat} {l' : Lists} (e : QOps.free r l = .ok l') :
    ∃ p', QOps.free r p = .ok p' ∧ RQ p' l' := by
  simp only [QOps.free] at e ⊢
  split at e
  · rename_i hc
    injection e with e
    subst e
    have hl := h.live r
    rw [hc.1] at hl
    obtain ⟨x, hx⟩ := Option.isSome_iff_exists.mp hl
    rw [hx]
    refine ⟨_, rfl, ?_⟩
    have nq := not_queued (Bool.eq_false_iff.mpr hc.2)
    constructor
    · exact h.size
    · intro s
      show (upd p.link r none s).isSome = if s = r then false else l.live s
      by_cases e : s = r
      · simp [e]
      · simp [upd_other _ _ _ _ e, e, h.live]
    · intro w
      refine (h.chain w).link_congr fun s m => (upd_other _ _ _ _ fun e => ?_).symm
      exact nq w (e ▸ m)
    · exact h.nodup
    · exact h.disj
    · intro s hs
      have hs : (if s = r then false else l.live s) = true := hs
      split at hs
      · exact absurd hs (by simp)
      · exact h.bound s hs
  · exact absurd e (by simp)

theorem head_eq (h : RQ p l) (w : W) : QOps.head w p = QOps.head w l := (h.chain w).head

theorem fuel_eq (h : RQ p l) : QOps.fuel p = QOps.fuel l := h.size

theorem chain_succ {f : Nat → Option (Option Nat)} {r : Nat} : ∀ {l : List Nat} {hd : Option Nat},
    Chain f hd l → r ∈ l → f r = some (Lists.succ r l)
  | [], _, _, m => absurd m (by simp)
  | s :: rs, _, c, m => by
    obtain ⟨_, x, h2, h3⟩ := c
    unfold Lists.succ
    by_cases e : s = r
    · subst e
      rw [if_pos rfl, h2, h3.head]
    · rw [if_neg e]
      refine chain_succ h3 ?_
      rcases List.mem_cons.mp m with rfl | m
      · exact absurd rfl e
      · exact m

theorem next (h : RQ p l) {w : W} {r : Nat} {x : Option Nat} (e : QOps.next w r l = .ok x) :
    QOps.next w r p = .ok x := by
  simp only [QOps.next, Ptrs.rd] at e ⊢
  split at e
  · rename_i hc
    injection e with e
    rw [chain_succ (h.chain w) (by simpa using hc), e]
  · exact absurd e (by simp)

theorem onList_eq {p : Ptrs} {r : Nat} : ∀ {l : List Nat} {hd : Option Nat} {n : Nat},
    Chain p.link hd l → l.length ≤ n → p.onList r n hd = .ok (l.contains r)
  | [], hd, n, c, _ => by
    have : hd = none := c
    subst this
    cases n <;> rfl
  | s :: rs, hd, 0, _, hn => absurd hn (by simp)
  | s :: rs, hd, n + 1, c, hn => by
    obtain ⟨rfl, x, h2, h3⟩ := c
    unfold Ptrs.onList
    by_cases e : s = r
    · subst e
      simp
    · rw [if_neg e]
      have hr : p.rd s = .ok x := by unfold Ptrs.rd; rw [h2]
      rw [hr]
      show p.onList r n x = _
      rw [onList_eq h3 (by simp at hn; omega)]
      simp [List.contains_cons, Ne.symm e]

theorem not_elsewhere {w v : W} {r : Nat} (hq : l.elsewhere w r = false) (hv : v ≠ w) : r ∉ l.q v := by
  simp [Lists.elsewhere] at hq
  obtain ⟨h1, h2, h3, h4⟩ := hq
  cases v
  · exact h1 hv
  · exact h2 hv
  · exact h3 hv
  · exact h4 hv

/-- Prepending a record that is in no queue. -/
theorem cons (h : RQ p l) {w : W} {r : Nat} (hl : l.live r) (nq : ∀ v, r ∉ l.q v) :
    RQ { p with link := upd p.link r (some (p.head w)),
                head := fun v => if v = w then some r else p.head v }
      (l.set w (r :: l.q w)) := by
  have ne : ∀ v, ∀ s ∈ l.q v, s ≠ r := fun v s m e => nq v (e ▸ m)
  constructor
  · exact h.size
  · intro s
    show (upd p.link r (some (p.head w)) s).isSome = l.live s
    by_cases e : s = r
    · subst e; simp [hl]
    · rw [upd_other _ _ _ _ e, h.live]
  · intro v
    show Chain (upd p.link r (some (p.head w))) (if v = w then some r else p.head v)
      (if v = w then r :: l.q w else l.q v)
    by_cases e : v = w
    · rw [if_pos e, if_pos e]
      refine ⟨rfl, p.head w, upd_same .., ?_⟩
      exact (h.chain w).link_congr fun s m => (upd_other _ _ _ _ (ne w s m)).symm
    · rw [if_neg e, if_neg e]
      exact (h.chain v).link_congr fun s m => (upd_other _ _ _ _ (ne v s m)).symm
  · intro v
    show (if v = w then r :: l.q w else l.q v).Nodup
    split
    · exact List.nodup_cons.mpr ⟨nq w, h.nodup w⟩
    · exact h.nodup v
  · intro v u s hv0 hu0
    have hv : s ∈ (if v = w then r :: l.q w else l.q v) := hv0
    have hu : s ∈ (if u = w then r :: l.q w else l.q u) := hu0
    split at hv <;> split at hu
    · simp [*]
    · rename_i e1 e2
      rcases List.mem_cons.mp hv with rfl | hv
      · exact absurd hu (nq u)
      · rw [e1]; exact h.disj _ _ _ hv hu
    · rename_i e1 e2
      rcases List.mem_cons.mp hu with rfl | hu
      · exact absurd hv (nq v)
      · rw [e2]; exact h.disj _ _ _ hv hu
    · exact h.disj _ _ _ hv hu
  · exact h.bound

theorem wr_live (h : RQ p l) {r : Nat} (hl : l.live r) (x : Option Nat) :
    p.wr r x = .ok { p with link := upd p.link r (some x) } := by
  obtain ⟨y, hy⟩ := Option.isSome_iff_exists.mp ((h.live r).trans hl)
  unfold Ptrs.wr
  rw [hy]

theorem push (h : RQ p l) {w : W} {r : Nat} {l' : Lists} (e : QOps.push w r l = .ok l') :
    ∃ p', QOps.push w r p = .ok p' ∧ RQ p' l' := by
  simp only [QOps.push] at e ⊢
  split at e
  · rename_i hc
    injection e with e
    subst e
    unfold Ptrs.push
    rw [onList_eq (h.chain w) (h.length_le w)]
    by_cases hm : (l.q w).contains r = true
    · rw [if_pos hm]
      refine ⟨p, ?_, h⟩
      show (if (l.q w).contains r = true then _ else _) = _
      rw [if_pos hm]
    · rw [if_neg hm]
      have nq : ∀ v, r ∉ l.q v := fun v => by
        by_cases ev : v = w
        · subst ev; simpa using hm
        · exact not_elsewhere (Bool.eq_false_iff.mpr hc.2) ev
      refine ⟨_, ?_, h.cons hc.1 nq⟩
      show (if (l.q w).contains r = true then _ else _) = _
      rw [if_neg hm, h.wr_live hc.1]
      rfl
  · exact absurd e (by simp)

theorem linkNow (h : RQ p l) {r : Nat} {l' : Lists} (e : QOps.linkNow r l = .ok l') :
    ∃ p', QOps.linkNow r p = .ok p' ∧ RQ p' l' := by
  simp only [QOps.linkNow] at e ⊢
  split at e
  · rename_i hc
    injection e with e
    subst e
    refine ⟨_, ?_, h.cons hc.1 fun v => not_queued (Bool.eq_false_iff.mpr hc.2) v⟩
    unfold Ptrs.linkNow
    rw [h.wr_live hc.1]
    rfl
  · exact absurd e (by simp)

theorem set_sub (h : RQ p l) {w : W} {x : List Nat} {f : Nat → Option (Option Nat)} {hd : W → Option Nat}
    (hsub : x.Sublist (l.q w)) (live : ∀ r, (f r).isSome = l.live r)
    (hw : Chain f (hd w) x) (other : ∀ v, v ≠ w → Chain f (hd v) (l.q v)) :
    RQ { p with link := f, head := hd } (l.set w x) where
  size := h.size
  live := live
  chain v := by
    show Chain f (hd v) (if v = w then x else l.q v)
    split
    · rename_i e; rw [e]; exact hw
    · rename_i e; exact other v e
  nodup v := by
    show (if v = w then x else l.q v).Nodup
    split
    · exact (h.nodup w).sublist hsub
    · exact h.nodup v
  disj v u s hv hu := by
    have hv : s ∈ (if v = w then x else l.q v) := hv
    have hu : s ∈ (if u = w then x else l.q u) := hu
    refine h.disj v u s ?_ ?_
    · split at hv
      · rename_i e; rw [e]; exact hsub.subset hv
      · exact hv
    · split at hu
      · rename_i e; rw [e]; exact hsub.subset hu
      · exact hu
  bound := h.bound

theorem pop (h : RQ p l) {w : W} {l' : Lists} (e : QOps.pop w l = .ok l') :
    ∃ p', QOps.pop w p = .ok p' ∧ RQ p' l' := by
  simp only [QOps.pop] at e ⊢
  split at e
  · exact absurd e (by simp)
  · rename_i r rest hq
    injection e with e
    subst e
    have hc := h.chain w
    rw [hq] at hc
    obtain ⟨h1, x, h2, h3⟩ := hc
    have nd := h.nodup w
    rw [hq] at nd
    have hx : x ≠ some r := fun e => by
      rw [h3.head] at e
      exact (List.nodup_cons.mp nd).1 (List.mem_of_mem_head? (by rw [e]; rfl))
    unfold Ptrs.pop
    rw [h1]
    have hr : p.rd r = .ok x := by unfold Ptrs.rd; rw [h2]
    refine ⟨_, by
      show (p.rd r).bind _ = _
      rw [hr]
      show Res.ok (p.setHead w (if x = some r then none else x)) = _
      rw [if_neg hx], ?_⟩
    refine h.set_sub (by rw [hq]; exact List.sublist_cons_self r rest) h.live ?_ ?_
    · rw [if_pos rfl]; exact h3
    · intro v hv
      show Chain p.link (if v = w then x else p.head v) (l.q v)
      rw [if_neg hv]; exact h.chain v

theorem clearNow (h : RQ p l) {l' : Lists} (e : QOps.clearNow l = .ok l') :
    ∃ p', QOps.clearNow p = .ok p' ∧ RQ p' l' := by
  simp only [QOps.clearNow] at e ⊢
  injection e with e
  subst e
  refine ⟨_, rfl, h.set_sub (by simp) h.live ?_ ?_⟩
  · exact if_pos rfl
  · intro v hv
    show Chain p.link (if v = .now then none else p.head v) (l.q v)
    rw [if_neg hv]; exact h.chain v

/-- The chain with `r` unlinked from behind its predecessor. -/
theorem chain_unlink {f : Nat → Option (Option Nat)} {r a : Nat} {x y : Option Nat} :
    ∀ {l : List Nat} {hd : Option Nat}, Chain f hd l → l.Nodup → r ∈ l → Lists.pred r l = some a →
      f r = some y → hd ≠ some r ∧ Chain (upd (upd f a (some y)) r (some x)) hd (l.erase r)
  | [], _, _, _, m, _, _ => absurd m (by simp)
  | s :: rs, hd, c, nd, m, hp, hy => by
    obtain ⟨rfl, z, h2, h3⟩ := c
    have nd' := List.nodup_cons.mp nd
    unfold Lists.pred at hp
    split at hp
    · rename_i e
      injection hp with hp
      subst hp
      cases rs with
      | nil => simp at e
      | cons t ts =>
        simp at e
        subst e
        have hst : s ≠ t := fun e => nd'.1 (by simp [e])
        refine ⟨by simpa using hst, ?_⟩
        rw [List.erase_cons_tail (by simpa using hst), List.erase_cons_head]
        obtain ⟨_, z', h4, h5⟩ := h3
        rw [hy] at h4
        injection h4 with h4
        subst h4
        refine ⟨rfl, y, ?_, ?_⟩
        · rw [upd_other _ _ _ _ hst, upd_same]
        · refine h5.link_congr fun u hu => ?_
          have hut : u ≠ t := fun e => (List.nodup_cons.mp nd'.2).1 (e ▸ hu)
          have hus : u ≠ s := fun e => nd'.1 (by rw [← e]; simp [hu])
          rw [upd_other _ _ _ _ hut, upd_other _ _ _ _ hus]
    · have hsr : s ≠ r := fun e => by
        subst e
        have : ∀ l : List Nat, s ∉ l → Lists.pred s l = none := by
          intro l
          induction l with
          | nil => intro _; rfl
          | cons b bs ih =>
            intro hb
            unfold Lists.pred
            rw [if_neg, ih (fun hm => hb (by simp [hm]))]
            intro e
            exact hb (by simp [List.mem_of_mem_head? (by rw [e]; rfl : s ∈ bs.head?)])
        rw [this rs nd'.1] at hp
        exact absurd hp (by simp)
      refine ⟨by simpa using hsr, ?_⟩
      have m' : r ∈ rs := by
        rcases List.mem_cons.mp m with rfl | m
        · exact absurd rfl hsr
        · exact m
      obtain ⟨_, h6⟩ := chain_unlink (x := x) h3 nd'.2 m' hp hy
      rw [List.erase_cons_tail (by simpa using hsr)]
      refine ⟨rfl, z, ?_, h6⟩
      have hpm : ∀ l : List Nat, Lists.pred r l = some a → a ∈ l := by
        intro l
        induction l with
        | nil => intro h; exact absurd h (by simp [Lists.pred])
        | cons b bs ih =>
          intro h
          unfold Lists.pred at h
          split at h
          · injection h with h; simp [h]
          · simp [ih h]
      have hsa : s ≠ a := fun e => nd'.1 (e ▸ hpm rs hp)
      rw [upd_other _ _ _ _ hsr, upd_other _ _ _ _ hsa, h2]

theorem pred_mem {r a : Nat} : ∀ {l : List Nat}, Lists.pred r l = some a → a ∈ l
  | [], h => absurd h (by simp [Lists.pred])
  | b :: bs, h => by
    unfold Lists.pred at h
    split at h
    · injection h with h; simp [h]
    · simp [pred_mem h]

theorem pred_none {r : Nat} : ∀ {l : List Nat}, Lists.pred r l = none → r ∈ l → l.head? = some r
  | [], _, m => absurd m (by simp)
  | b :: bs, h, m => by
    unfold Lists.pred at h
    split at h
    · exact absurd h (by simp)
    · rename_i hne
      rcases List.mem_cons.mp m with rfl | m
      · rfl
      · exact absurd (pred_none h m) hne

/-- Unlinking `r`, whose link is then set to `z`. -/
theorem unlink (h : RQ p l) {w : W} {r : Nat} (m : r ∈ l.q w)
    {f : Nat → Option (Option Nat)} {hd : W → Option Nat}
    (hhead : ∀ v, v ≠ w → hd v = p.head v)
    (hnone : Lists.pred r (l.q w) = none →
      hd w = Lists.succ r (l.q w) ∧ ∀ s, s ≠ r → f s = p.link s)
    (hsome : ∀ a, Lists.pred r (l.q w) = some a →
      hd w = p.head w ∧ f a = some (Lists.succ r (l.q w)) ∧ ∀ s, s ≠ r → s ≠ a → f s = p.link s)
    (hr : (f r).isSome) :
    RQ { p with link := f, head := hd } (l.set w ((l.q w).erase r)) := by
  have hsucc := chain_succ (h.chain w) m
  have nd := h.nodup w
  have other : ∀ v, v ≠ w → ∀ s ∈ l.q v, f s = p.link s := by
    intro v hv s hs
    have hsr : s ≠ r := fun e => hv (h.disj v w r (e ▸ hs) m)
    cases hp : Lists.pred r (l.q w) with
    | none => exact (hnone hp).2 s hsr
    | some a =>
      refine (hsome a hp).2.2 s hsr fun e => hv (h.disj v w a (e ▸ hs) (pred_mem hp))
  refine h.set_sub List.erase_sublist ?_ ?_ ?_
  · intro s
    by_cases e : s = r
    · subst e
      rw [hr, h.mem_live m]
    · cases hp : Lists.pred r (l.q w) with
      | none => rw [(hnone hp).2 s e, h.live]
      | some a =>
        obtain ⟨_, h2, h3⟩ := hsome a hp
        by_cases ea : s = a
        · subst ea
          rw [h2, h.mem_live (pred_mem hp)]
          rfl
        · rw [h3 s e ea, h.live]
  · cases hp : Lists.pred r (l.q w) with
    | none =>
      obtain ⟨h1, h2⟩ := hnone hp
      have hh := pred_none hp m
      have hc := h.chain w
      revert h1 hsucc hc hh nd
      cases hq : l.q w with
      | nil => intro _ _ _ hh _; exact absurd hh (by simp)
      | cons s rs =>
        intro hsucc nd h1 hh hc
        simp at hh
        subst hh
        rw [List.erase_cons_head]
        obtain ⟨_, x, h4, h5⟩ := hc
        rw [hsucc] at h4
        rw [h1, Option.some.inj h4]
        refine h5.link_congr fun u hu => (h2 u ?_).symm
        intro e
        exact (List.nodup_cons.mp nd).1 (e ▸ hu)
    | some a =>
      obtain ⟨h1, h2, h3⟩ := hsome a hp
      obtain ⟨_, h5⟩ := chain_unlink (x := none) (h.chain w) nd m hp hsucc
      rw [h1]
      refine h5.link_congr fun u hu => ?_
      have hur : u ≠ r := (nd.mem_erase_iff.mp hu).1
      rw [upd_other _ _ _ _ hur]
      by_cases ea : u = a
      · subst ea
        rw [upd_same, h2]
      · rw [upd_other _ _ _ _ ea, h3 u hur ea]
  · intro v hv
    rw [hhead v hv]
    exact (h.chain v).link_congr fun s hs => (other v hv s hs).symm

theorem rd_mem (h : RQ p l) {w : W} {r : Nat} (m : r ∈ l.q w) :
    p.rd r = .ok (Lists.succ r (l.q w)) := by
  unfold Ptrs.rd
  rw [chain_succ (h.chain w) m]

theorem zapProbing (h : RQ p l) {r : Nat} {l' : Lists} (e : QOps.zapProbing r l = .ok l') :
    ∃ p', QOps.zapProbing r p = .ok p' ∧ RQ p' l' := by
  simp only [QOps.zapProbing] at e ⊢
  split at e
  · rename_i hc
    injection e with e
    subst e
    have m : r ∈ l.q .probing := by simpa using hc
    unfold Ptrs.zapProbing
    have hhd : p.head .probing = (l.q .probing).head? := (h.chain .probing).head
    by_cases hh : p.head .probing = some r
    · rw [if_pos hh, h.rd_mem m]
      refine ⟨_, rfl, h.unlink m (fun v hv => if_neg hv) ?_ ?_ ((h.live r).trans (h.mem_live m))⟩
      · intro _
        exact ⟨if_pos rfl, fun _ _ => rfl⟩
      · intro a ha
        have hc := h.chain .probing
        obtain ⟨h1, _⟩ := chain_unlink (x := none) hc (h.nodup _) m ha (chain_succ hc m)
        exact absurd hh h1
    · rw [if_neg hh]
      obtain ⟨a, ha⟩ : ∃ a, Lists.pred r (l.q .probing) = some a := by
        cases hp : Lists.pred r (l.q .probing) with
        | none => exact absurd (by rw [hhd]; exact pred_none hp m) hh
        | some a => exact ⟨a, rfl⟩
      have walk : ∀ (t : List Nat) (n : Nat) (hd : Option Nat), Chain p.link hd t → t.length ≤ n →
          Lists.pred r t = some a →
          p.zapWalk r n hd = .ok { p with link := upd p.link a (some (Lists.succ r (l.q .probing))) } := by
        intro t
        induction t with
        | nil => intro n hd _ _ hp; exact absurd hp (by simp [Lists.pred])
        | cons s rs ih =>
          intro n hd hc hn hp
          cases n with
          | zero => exact absurd hn (by simp)
          | succ n =>
            obtain ⟨rfl, x, h2, h3⟩ := hc
            unfold Ptrs.zapWalk
            have hr : p.rd s = .ok x := by unfold Ptrs.rd; rw [h2]
            show (p.rd s).bind _ = _
            rw [hr]
            show (if x = some r then _ else _) = _
            unfold Lists.pred at hp
            rw [← h3.head] at hp
            by_cases hx : x = some r
            · rw [if_pos hx] at hp ⊢
              injection hp with hp
              subst hp
              show (p.rd r).bind _ = _
              rw [h.rd_mem m]
              show p.wr s _ = _
              unfold Ptrs.wr
              rw [h2]
            · rw [if_neg hx] at hp ⊢
              exact ih n x h3 (by simp at hn; omega) hp
      rw [walk _ _ _ (h.chain .probing) (h.length_le _) ha]
      have hra : r ≠ a := fun e => by
        subst e
        have := chain_unlink (x := none) (h.chain .probing) (h.nodup _) m ha (chain_succ (h.chain .probing) m)
        have key : ∀ t : List Nat, t.Nodup → Lists.pred r t ≠ some r := by
          intro t
          induction t with
          | nil => intro _ h; exact absurd h (by simp [Lists.pred])
          | cons b bs ih =>
            intro nd hp
            have nd' := List.nodup_cons.mp nd
            unfold Lists.pred at hp
            split at hp
            · rename_i hbs
              injection hp with hp
              subst hp
              exact nd'.1 (List.mem_of_mem_head? (by rw [hbs]; rfl))
            · exact ih nd'.2 hp
        exact key _ (h.nodup _) ha
      refine ⟨_, rfl, h.unlink m (fun _ _ => rfl) ?_ ?_ ?_⟩
      · intro hp; rw [ha] at hp; exact absurd hp (by simp)
      · intro b hb
        rw [ha] at hb
        injection hb with hb
        subst hb
        exact ⟨rfl, upd_same .., fun s _ hs => upd_other _ _ _ _ hs⟩
      · show (upd p.link a _ r).isSome
        rw [upd_other _ _ _ _ hra, h.live, h.mem_live m]
  · exact absurd e (by simp)

theorem pred_ne {r a : Nat} {t : List Nat} (nd : t.Nodup) (hp : Lists.pred r t = some a) : a ≠ r := by
  rintro rfl
  induction t with
  | nil => exact absurd hp (by simp [Lists.pred])
  | cons b bs ih =>
    have nd' := List.nodup_cons.mp nd
    unfold Lists.pred at hp
    split at hp
    · rename_i hbs
      injection hp with hp
      subst hp
      exact nd'.1 (List.mem_of_mem_head? (by rw [hbs]; rfl))
    · exact ih nd'.2 hp

theorem head_ne_of_pred (h : RQ p l) {w : W} {r a : Nat} (m : r ∈ l.q w)
    (hp : Lists.pred r (l.q w) = some a) : p.head w ≠ some r :=
  (chain_unlink (x := none) (h.chain w) (h.nodup _) m hp (chain_succ (h.chain w) m)).1

theorem head_of_pred_none (h : RQ p l) {w : W} {r : Nat} (m : r ∈ l.q w)
    (hp : Lists.pred r (l.q w) = none) : p.head w = some r := by
  rw [(h.chain w).head]; exact pred_none hp m

theorem unlinkProbing (h : RQ p l) {r : Nat} {last : Option Nat} {l' : Lists}
    (e : QOps.unlinkProbing r last l = .ok l') :
    ∃ p', QOps.unlinkProbing r last p = .ok p' ∧ RQ p' l' := by
  simp only [QOps.unlinkProbing] at e ⊢
  split at e
  · rename_i hc
    injection e with e
    subst e
    have m : r ∈ l.q .probing := by simpa using hc.1
    unfold Ptrs.unlinkProbing
    show ∃ p', (p.rd r).bind _ = _ ∧ _
    rw [h.rd_mem m]
    have hl := h.mem_live m
    cases hp : Lists.pred r (l.q .probing) with
    | none =>
      have hh := h.head_of_pred_none m hp
      have hw : (p.setHead .probing (Lists.succ r (l.q .probing))).wr r none =
          .ok { p.setHead .probing (Lists.succ r (l.q .probing)) with
                  link := upd p.link r (some none) } := by
        obtain ⟨y, hy⟩ := Option.isSome_iff_exists.mp ((h.live r).trans hl)
        unfold Ptrs.wr Ptrs.setHead
        simp only []
        rw [hy]
      refine ⟨_, by
        show Res.bind (Ptrs.unlinkProbing.unlinkAt r last p _) _ = _
        unfold Ptrs.unlinkProbing.unlinkAt
        rw [if_pos hh]
        exact hw, ?_⟩
      refine h.unlink m (fun v hv => if_neg hv) ?_ ?_ ?_
      · intro _
        exact ⟨by simp [Ptrs.setHead], fun s hs => upd_other _ _ _ _ hs⟩
      · intro a ha; rw [hp] at ha; exact absurd ha (by simp)
      · show (upd p.link r (some none) r).isSome
        simp
    | some a =>
      have hh := h.head_ne_of_pred m hp
      have hlast : last = some a := by rw [← hc.2, hp]
      subst hlast
      have har := pred_ne (h.nodup _) hp
      refine ⟨{ p with link := upd (upd p.link a (some (Lists.succ r (l.q .probing)))) r (some none) }, ?_, ?_⟩
      · show Res.bind (Ptrs.unlinkProbing.unlinkAt r (some a) p _) _ = _
        unfold Ptrs.unlinkProbing.unlinkAt
        rw [if_neg hh]
        show Res.bind (p.wr a _) _ = _
        rw [h.wr_live (h.mem_live (pred_mem hp))]
        show Ptrs.wr _ r none = _
        obtain ⟨y, hy⟩ := Option.isSome_iff_exists.mp ((h.live r).trans hl)
        unfold Ptrs.wr
        simp only [upd_other _ _ _ _ (Ne.symm har)]
        rw [hy]
      · refine h.unlink m (fun _ _ => rfl) ?_ ?_ ?_
        · intro hn; rw [hp] at hn; exact absurd hn (by simp)
        · intro b hb
          rw [hp] at hb
          injection hb with hb
          subst hb
          refine ⟨rfl, ?_, fun s h1 h2 => ?_⟩
          · rw [upd_other _ _ _ _ har, upd_same]
          · rw [upd_other _ _ _ _ h1, upd_other _ _ _ _ h2]
        · simp
  · exact absurd e (by simp)

theorem unlinkPublish (h : RQ p l) {r : Nat} {last next : Option Nat} {l' : Lists}
    (e : QOps.unlinkPublish r last next l = .ok l') :
    ∃ p', QOps.unlinkPublish r last next p = .ok p' ∧ RQ p' l' := by
  simp only [QOps.unlinkPublish] at e ⊢
  split at e
  · rename_i hc
    injection e with e
    subst e
    obtain ⟨m, hlast, hnext⟩ := hc
    have m : r ∈ l.q .publish := by simpa using m
    unfold Ptrs.unlinkPublish
    show ∃ p', (p.wr r none).bind _ = _ ∧ _
    have hl := h.mem_live m
    rw [h.wr_live hl]
    cases hp : Lists.pred r (l.q .publish) with
    | none =>
      have hh := h.head_of_pred_none m hp
      have : last = none := by rw [← hlast, hp]
      subst this
      refine ⟨({ p with link := upd p.link r (some none) } : Ptrs).setHead .publish next, ?_, ?_⟩
      · show Res.ok (if p.head .publish = some r then _ else _) = _
        rw [if_pos hh]
      · refine h.unlink m (fun v hv => if_neg hv) ?_ ?_ ?_
        · intro _
          exact ⟨(if_pos rfl).trans hnext.symm, fun s hs => upd_other _ _ _ _ hs⟩
        · intro a ha; rw [hp] at ha; exact absurd ha (by simp)
        · show (upd p.link r (some none) r).isSome
          simp
    | some a =>
      have hh := h.head_ne_of_pred m hp
      have : last = some a := by rw [← hlast, hp]
      subst this
      have har := pred_ne (h.nodup _) hp
      refine ⟨{ p with link := upd (upd p.link r (some none)) a (some next) }, ?_, ?_⟩
      · show Ptrs.wr (if p.head .publish = some r then _ else _) a next = _
        rw [if_neg hh]
        obtain ⟨y, hy⟩ := Option.isSome_iff_exists.mp ((h.live a).trans (h.mem_live (pred_mem hp)))
        unfold Ptrs.wr
        simp only [upd_other _ _ _ _ har]
        rw [hy]
      · refine h.unlink m (fun _ _ => rfl) ?_ ?_ ?_
        · intro hn; rw [hp] at hn; exact absurd hn (by simp)
        · intro b hb
          rw [hp] at hb
          injection hb with hb
          subst hb
          refine ⟨rfl, ?_, fun s h1 h2 => ?_⟩
          · rw [upd_same, hnext]
          · rw [upd_other _ _ _ _ h2, upd_other _ _ _ _ h1]
        · show (upd (upd p.link r (some none)) a (some next) r).isSome
          rw [upd_other _ _ _ _ (Ne.symm har), upd_same]
          rfl
  · exact absurd e (by simp)

theorem removeWalk_not_mem {p : Ptrs} {r : Nat} : ∀ {t : List Nat} {n : Nat} {hd : Option Nat},
    Chain p.link hd t → t.Nodup → t.length ≤ n → r ∉ t → p.removeWalk r n hd = .ok p
  | [], n, hd, c, _, _, _ => by
    have : hd = none := c
    subst this
    cases n <;> rfl
  | s :: rs, 0, _, _, _, hn, _ => absurd hn (by simp)
  | s :: rs, n + 1, hd, c, nd, hn, hr => by
    obtain ⟨rfl, x, h2, h3⟩ := c
    have nd' := List.nodup_cons.mp nd
    unfold Ptrs.removeWalk
    have hx : p.rd s = .ok x := by unfold Ptrs.rd; rw [h2]
    show (p.rd s).bind _ = _
    rw [hx]
    show (if x = some r then _ else _) = _
    have mem : ∀ y, x = some y → y ∈ rs := fun y e => by
      rw [h3.head] at e
      exact List.mem_of_mem_head? (by rw [e]; rfl)
    rw [if_neg fun e => hr (by simp [mem r e]), if_neg fun e => nd'.1 (mem s e)]
    exact removeWalk_not_mem h3 nd'.2 (by simp at hn; omega) fun m => hr (by simp [m])

theorem removeWalk_mem (h : RQ p l) {w : W} {r a : Nat} (m : r ∈ l.q w) (har : a ≠ r) :
    ∀ {t : List Nat} {n : Nat} {hd : Option Nat}, Chain p.link hd t → t.Nodup → t.length ≤ n →
      Lists.pred r t = some a →
      p.removeWalk r n hd =
        .ok { p with link := upd (upd p.link a (some (Lists.succ r (l.q w)))) r (some none) }
  | [], _, _, _, _, _, hp => absurd hp (by simp [Lists.pred])
  | s :: rs, 0, _, _, _, hn, _ => absurd hn (by simp)
  | s :: rs, n + 1, hd, c, nd, hn, hp => by
    obtain ⟨rfl, x, h2, h3⟩ := c
    have nd' := List.nodup_cons.mp nd
    unfold Ptrs.removeWalk
    have hx : p.rd s = .ok x := by unfold Ptrs.rd; rw [h2]
    show (p.rd s).bind _ = _
    rw [hx]
    show (if x = some r then _ else _) = _
    unfold Lists.pred at hp
    rw [← h3.head] at hp
    by_cases e : x = some r
    · rw [if_pos e] at hp ⊢
      injection hp with hp
      subst hp
      show (p.rd r).bind _ = _
      rw [h.rd_mem m]
      show (p.wr s _).bind _ = _
      have h2' : p.wr s (Lists.succ r (l.q w)) =
          .ok { p with link := upd p.link s (some (Lists.succ r (l.q w))) } := by
        unfold Ptrs.wr; rw [h2]
      rw [h2']
      show Ptrs.wr _ r none = _
      obtain ⟨y, hy⟩ := Option.isSome_iff_exists.mp ((h.live r).trans (h.mem_live m))
      unfold Ptrs.wr
      simp only [upd_other _ _ _ _ (Ne.symm har)]
      rw [hy]
    · rw [if_neg e] at hp ⊢
      have mem : ∀ y, x = some y → y ∈ rs := fun y e => by
        rw [h3.head] at e
        exact List.mem_of_mem_head? (by rw [e]; rfl)
      rw [if_neg fun e => nd'.1 (mem s e)]
      exact removeWalk_mem h m har h3 nd'.2 (by simp at hn; omega) hp

theorem set_self (l : Lists) (w : W) (x : List Nat) (hx : x = l.q w) : l.set w x = l := by
  subst hx
  unfold Lists.set
  congr
  funext v
  split
  · rename_i e; rw [e]
  · rfl

theorem removeList (h : RQ p l) (w : W) (r : Nat) :
    ∃ p', p.removeList w r = .ok p' ∧ RQ p' (l.set w ((l.q w).erase r)) := by
  unfold Ptrs.removeList
  by_cases m : r ∈ l.q w
  · have hl := h.mem_live m
    cases hp : Lists.pred r (l.q w) with
    | none =>
      have hh := h.head_of_pred_none m hp
      rw [if_pos hh]
      refine ⟨{ p.setHead w (Lists.succ r (l.q w)) with link := upd p.link r (some none) }, ?_, ?_⟩
      · show (p.rd r).bind _ = _
        rw [h.rd_mem m]
        show Ptrs.wr (p.setHead w _) r none = _
        obtain ⟨y, hy⟩ := Option.isSome_iff_exists.mp ((h.live r).trans hl)
        unfold Ptrs.wr Ptrs.setHead
        simp only []
        rw [hy]
      · refine h.unlink m (fun v hv => if_neg hv) ?_ ?_ ?_
        · intro _
          exact ⟨if_pos rfl, fun s hs => upd_other _ _ _ _ hs⟩
        · intro a ha; rw [hp] at ha; exact absurd ha (by simp)
        · show (upd p.link r (some none) r).isSome
          simp
    | some a =>
      have hh := h.head_ne_of_pred m hp
      have har := pred_ne (h.nodup _) hp
      rw [if_neg hh, h.removeWalk_mem m har (h.chain w) (h.nodup w) (h.length_le w) hp]
      refine ⟨_, rfl, h.unlink m (fun _ _ => rfl) ?_ ?_ ?_⟩
      · intro hn; rw [hp] at hn; exact absurd hn (by simp)
      · intro b hb
        rw [hp] at hb
        injection hb with hb
        subst hb
        refine ⟨rfl, ?_, fun s h1 h2 => ?_⟩
        · rw [upd_other _ _ _ _ har, upd_same]
        · rw [upd_other _ _ _ _ h1, upd_other _ _ _ _ h2]
      · simp
  · have hh : p.head w ≠ some r := fun e => m (by
      rw [(h.chain w).head] at e
      exact List.mem_of_mem_head? (by rw [e]; rfl))
    rw [if_neg hh, removeWalk_not_mem (h.chain w) (h.nodup w) (h.length_le w) m,
      set_self _ _ _ (List.erase_of_not_mem m)]
    exact ⟨p, rfl, h⟩

theorem removeUnless (h : RQ p l) (w : W) (r : Nat) (skip : Option W) :
    ∃ p', p.removeUnless w r skip = .ok p' ∧
      RQ p' (l.set w (if skip = some w then l.q w else (l.q w).erase r)) := by
  unfold Ptrs.removeUnless
  by_cases e : skip = some w
  · rw [if_pos e, set_self _ _ _ rfl, if_neg (fun h => h.2 e)]
    exact ⟨p, rfl, h⟩
  · rw [if_neg e]
    by_cases hn : p.head w = none
    · rw [if_neg (fun h => h.1 hn)]
      refine ⟨p, rfl, ?_⟩
      have : l.q w = [] := by
        have := (h.chain w).head
        rw [hn] at this
        exact List.head?_eq_none_iff.mp this.symm
      rw [set_self _ _ _ (by simp [this])]
      exact h
    · rw [if_pos ⟨hn, e⟩]
      exact h.removeList w r

theorem removeLists (h : RQ p l) {r : Nat} {skip : Option W} {l' : Lists}
    (e : QOps.removeLists r skip l = .ok l') :
    ∃ p', QOps.removeLists r skip p = .ok p' ∧ RQ p' l' := by
  simp only [QOps.removeLists] at e ⊢
  injection e with e
  unfold Ptrs.removeLists
  obtain ⟨p1, e1, h1⟩ := h.removeUnless .probing r skip
  obtain ⟨p2, e2, h2⟩ := h1.removeUnless .now r skip
  obtain ⟨p3, e3, h3⟩ := h2.removeUnless .pause r skip
  obtain ⟨p4, e4, h4⟩ := h3.removeUnless .publish r skip
  refine ⟨p4, ?_, ?_⟩
  · show (p.removeUnless .probing r skip).bind _ = _
    rw [e1]
    show (p1.removeUnless .now r skip).bind _ = _
    rw [e2]
    show (p2.removeUnless .pause r skip).bind _ = _
    rw [e3]
    exact e4
  · rw [← e]
    have : (((l.set .probing (if skip = some .probing then l.q .probing else (l.q .probing).erase r)).set
        .now (if skip = some .now then l.q .now else (l.q .now).erase r)).set
        .pause (if skip = some .pause then l.q .pause else (l.q .pause).erase r)).set
        .publish (if skip = some .publish then l.q .publish else (l.q .publish).erase r) =
        { l with q := fun w => if skip = some w then l.q w else (l.q w).erase r } := by
      unfold Lists.set
      congr
      funext v
      cases v <;> simp
    rw [← this]
    exact h4

end RQ

end Mdns
