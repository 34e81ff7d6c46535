import Verif.Model.Tailq
import Verif.Lemmas.Queues

/-!
# The list of interfaces: pointers and lists
-/

namespace Mdns.Tailq

open Mdns.Proc
open Mdns.Iface (Iface Ifa)

/-! ### Code with cells against code with a list -/

variable {α β γ δ : Type}

/-- The code only changes the memory: from `h` it gives `a` and `h'`. -/
def Runs (p : P α) (h : Heap) (a : α) (h' : Heap) : Prop := ∀ s, p h s = .ok (a, h') s

theorem bind_eq (p : P α) (f : α → P β) (h : Heap) (s : Sys) : (p >>= f) h s =
    (match (p h : Proc.M (α × Heap)) s with
      | .ok a s => f a.1 a.2 s | .exit s => .exit s | .ub => .ub | .large => .large) := by
  unfold Bind.bind Monad.toBind instMonadP
  simp only [Bind.bind]
  cases p h s <;> rfl

theorem Runs.bind {p : P α} {f : α → P β} {h h1 h2 : Heap} {a : α} {b : β} (r : Runs p h a h1) (q : Runs (f a) h1 b h2) :
    Runs (p >>= f) h b h2 := by
  intro s
  rw [bind_eq, r s]
  exact q s

theorem Runs.pure {h : Heap} {a : α} : Runs (Pure.pure a : P α) h a h := fun _ => rfl

/-- `p` from the memory `h` does to the system what `m` does, and ends like it; the results and the memory are related
by `Q`. -/
def Sim (p : P α) (m : Proc.M β) (h : Heap) (Q : α → Heap → β → Prop) : Prop := ∀ s, match m s with
  | .ok b s' => ∃ a h', p h s = .ok (a, h') s' ∧ Q a h' b
  | .exit s' => p h s = .exit s'
  | .ub => p h s = .ub
  | .large => p h s = .large

theorem Sim.pure {h : Heap} {a : α} {b : β} {Q : α → Heap → β → Prop} (q : Q a h b) :
    Sim (Pure.pure a : P α) (Pure.pure b : Proc.M β) h Q := fun _ => ⟨a, h, rfl, q⟩

theorem Sim.bind {p : P α} {m : Proc.M β} {h : Heap} {Q : α → Heap → β → Prop} {f : α → P γ} {g : β → Proc.M δ}
    {Q' : γ → Heap → δ → Prop} (n : Sim p m h Q) (k : ∀ a h' b, Q a h' b → Sim (f a) (g b) h' Q') :
    Sim (p >>= f) (m >>= g) h Q' := by
  intro s
  have e1 : (m >>= g) s = (match m s with | .ok a s => g a s | .exit s => .exit s | .ub => .ub | .large => .large) := rfl
  have e2 : (p >>= f) h s = _ := bind_eq p f h s
  have := n s
  rw [e1, e2]
  cases hm : m s with
  | ok b s' =>
    rw [hm] at this
    obtain ⟨a, h', e, q⟩ := this
    rw [e]
    exact k a h' b q s'
  | exit s' =>
    rw [hm] at this
    simp only at this ⊢
    rw [this]
  | ub =>
    rw [hm] at this
    simp only at this ⊢
    rw [this]
  | large =>
    rw [hm] at this
    simp only at this ⊢
    rw [this]

theorem Sim.mono {p : P α} {m : Proc.M β} {h : Heap} {Q Q' : α → Heap → β → Prop} (n : Sim p m h Q)
    (k : ∀ a h' b, Q a h' b → Q' a h' b) : Sim p m h Q' := by
  intro s
  have := n s
  cases hm : m s with
  | ok b s' =>
    rw [hm] at this
    obtain ⟨a, h', e, q⟩ := this
    exact ⟨a, h', e, k _ _ _ q⟩
  | exit s' => rw [hm] at this; exact this
  | ub => rw [hm] at this; exact this
  | large => rw [hm] at this; exact this

/-- Code in front that only changes the memory. -/
theorem Sim.after {p : P α} {h h1 : Heap} {a : α} (r : Runs p h a h1) {f : α → P β} {m : Proc.M γ} {Q : β → Heap → γ → Prop}
    (n : Sim (f a) m h1 Q) : Sim (p >>= f) m h Q := by
  intro s
  have e2 : (p >>= f) h s = f a h1 s := by
    rw [bind_eq, r s]
  rw [e2]
  exact n s

theorem Runs.sim {p : P α} {h h1 : Heap} {a : α} (r : Runs p h a h1) {b : β} {Q : α → Heap → β → Prop} (q : Q a h1 b) :
    Sim p (Pure.pure b : Proc.M β) h Q := fun s => ⟨a, h1, r s, q⟩

theorem Sim.map {p : P α} {m : Proc.M β} {h : Heap} {Q : α → Heap → β → Prop} (n : Sim p m h Q) {g : β → γ}
    {Q' : α → Heap → γ → Prop} (k : ∀ a h' b, Q a h' b → Q' a h' (g b)) : Sim p (m >>= fun b => Pure.pure (g b)) h Q' := by
  intro s
  have e1 : (m >>= fun b => Pure.pure (g b)) s =
    (match m s with | .ok a s => .ok (g a) s | .exit s => .exit s | .ub => .ub | .large => .large) := rfl
  have := n s
  rw [e1]
  cases hm : m s with
  | ok b s' =>
    rw [hm] at this
    obtain ⟨a, h', e, q⟩ := this
    exact ⟨a, h', e, k _ _ _ q⟩
  | exit s' => rw [hm] at this; exact this
  | ub => rw [hm] at this; exact this
  | large => rw [hm] at this; exact this

theorem Sim.lift {m : Proc.M α} {h : Heap} : Sim (lift m) m h (fun a h' b => a = b ∧ h' = h) := by
  intro s
  have e : Tailq.lift m h s = (match m s with | .ok a s => .ok (a, h) s | .exit s => .exit s | .ub => .ub | .large => .large) := rfl
  rw [e]
  cases hm : m s with
  | ok a s' => exact ⟨a, h, rfl, rfl, rfl⟩
  | exit s' => rfl
  | ub => rfl
  | large => rfl

/-! ### The cells of a list -/

/-- Where the pointer to what comes behind `o` is. -/
def locOf : Option Nat → Loc
  | none => .head
  | some n => .cell n

/-- The numbers of the cells. -/
abbrev ids (l : List (Nat × Slot)) : List Nat := l.map (·.1)

/-- The cells `l`, behind `p` and before `nx`. -/
def Seg (h : Heap) : Option Nat → List (Nat × Slot) → Option Nat → Prop
  | _, [], _ => True
  | p, (n, x) :: b, nx => h.cell n = some ⟨x, (ids b).head?.or nx, locOf p⟩ ∧ Seg h (some n) b nx

theorem Seg.append {h : Heap} : ∀ (a b : List (Nat × Slot)) (p nx : Option Nat),
    Seg h p (a ++ b) nx ↔ Seg h p a ((ids b).head?.or nx) ∧ Seg h ((ids a).getLast?.or p) b nx
  | [], b, p, nx => by simp [Seg]
  | (n, x) :: a, b, p, nx => by
    have hl : (ids ((n, x) :: a)).getLast?.or p = (ids a).getLast?.or (some n) := by
      cases a with
      | nil => rfl
      | cons q a => simp [List.getLast?_cons_cons]; cases h : (ids a).getLast? <;> simp [List.getLast?_cons]
    have hh : (ids (a ++ b)).head?.or nx = (ids a).head?.or ((ids b).head?.or nx) := by
      cases a <;> simp
    rw [List.cons_append]
    show (_ ∧ Seg h (some n) (a ++ b) nx) ↔ ((_ ∧ Seg h (some n) a _) ∧ _)
    rw [Seg.append a b, hl, hh, and_assoc]

theorem Seg.congr {h h' : Heap} : ∀ {l : List (Nat × Slot)} {p nx : Option Nat},
    Seg h p l nx → (∀ n ∈ ids l, h'.cell n = h.cell n) → Seg h' p l nx
  | [], _, _, _, _ => trivial
  | (n, x) :: b, _, _, s, k =>
    ⟨(k n (by simp)).trans s.1, s.2.congr fun m hm => k m (List.mem_cons_of_mem _ hm)⟩

/-- The memory has the interfaces `l` in its list, and no other cells. -/
structure Rep (h : Heap) (l : List (Nat × Slot)) : Prop where
  nodup : (ids l).Nodup
  first : h.first = (ids l).head?
  last : h.last = locOf (ids l).getLast?
  cells : Seg h none l none
  dead : ∀ n, n ∉ ids l → h.cell n = none
  fresh : ∀ n ∈ ids l, n < h.fresh

theorem Rep.empty : Rep {} [] := ⟨List.nodup_nil, rfl, rfl, trivial, fun _ _ => rfl, fun _ m => (by cases m)⟩

theorem Rep.size {h : Heap} {l : List (Nat × Slot)} (r : Rep h l) : l.length ≤ h.fresh := by
  have := nodup_bound h.fresh (ids l) r.nodup r.fresh
  simpa using this

theorem Rep.at {h : Heap} {a b : List (Nat × Slot)} {n : Nat} {x : Slot} (r : Rep h (a ++ (n, x) :: b)) :
    h.cell n = some ⟨x, (ids b).head?, locOf (ids a).getLast?⟩ := by
  have := ((Seg.append a _ _ _).mp r.cells).2.1
  simpa using this

theorem runs_load {h : Heap} {n : Nat} {c : Cell} (e : h.cell n = some c) : Runs (load n) h c h := by
  intro s
  unfold load
  rw [e]
  rfl

/-- A cell with other contents. -/
def Heap.put (h : Heap) (n : Nat) (c : Cell) : Heap := { h with cell := fun m => if m = n then some c else h.cell m }

theorem runs_change {h : Heap} {n : Nat} {c : Cell} (e : h.cell n = some c) (f : Cell → Cell) :
    Runs (change n f) h () (h.put n (f c)) := by
  intro s
  unfold change
  rw [e]
  rfl

theorem runs_modify (h : Heap) (f : Heap → Heap) : Runs (modify f) h () (f h) := fun _ => rfl

theorem runs_peek (h : Heap) (f : Heap → α) : Runs (peek f) h (f h) h := fun _ => rfl

theorem put_same {h : Heap} {n : Nat} {c : Cell} : (h.put n c).cell n = some c := if_pos rfl

theorem put_other {h : Heap} {n m : Nat} {c : Cell} (e : m ≠ n) : (h.put n c).cell m = h.cell m := if_neg e

theorem nodup_split {a b : List (Nat × Slot)} {n : Nat} {x : Slot} (hn : (ids (a ++ (n, x) :: b)).Nodup) :
    n ∉ ids a ∧ n ∉ ids b ∧ (ids (a ++ b)).Nodup ∧ ∀ m ∈ ids a, m ∉ ids b := by
  simp only [ids, List.map_append, List.map_cons] at hn ⊢
  rw [List.nodup_append] at hn
  obtain ⟨k1, k2, k3⟩ := hn
  rw [List.nodup_cons] at k2
  refine ⟨fun m => k3 n m n (.head _) rfl, k2.1, ?_, fun m hm hb => k3 m hm m (.tail _ hb) rfl⟩
  rw [List.nodup_append]
  exact ⟨k1, k2.2, fun u hu v hv => k3 u hu v (.tail _ hv)⟩

/-- The contents of a cell are changed. -/
theorem Rep.set {h : Heap} {a b : List (Nat × Slot)} {n : Nat} {x : Slot} (r : Rep h (a ++ (n, x) :: b)) (y : Slot) :
    Rep (h.put n ⟨y, (ids b).head?, locOf (ids a).getLast?⟩) (a ++ (n, y) :: b) := by
  have hi : ids (a ++ (n, y) :: b) = ids (a ++ (n, x) :: b) := by simp [ids]
  obtain ⟨k1, k2, _, _⟩ := nodup_split r.nodup
  obtain ⟨s1, s2⟩ := (Seg.append a _ _ _).mp r.cells
  refine ⟨?_, ?_, ?_, ?_, ?_, ?_⟩
  · rw [hi]; exact r.nodup
  · rw [hi]; exact r.first
  · rw [hi]; exact r.last
  · refine (Seg.append a _ _ _).mpr ⟨s1.congr fun m hm => put_other fun e => k1 (e ▸ hm), ?_, ?_⟩
    · rw [put_same]
      simp
    · exact s2.2.congr fun m hm => put_other fun e => k2 (e ▸ hm)
  · intro m k
    rw [hi] at k
    rw [put_other (by rintro rfl; exact k (by simp [ids]))]
    exact r.dead m k
  · rw [hi]; exact r.fresh

/-- The last cell gets another successor. -/
theorem setLoc_last {h : Heap} {a : List (Nat × Slot)} {nx : Option Nat} (hs : Seg h none a nx) (hn : (ids a).Nodup)
    (v : Option Nat) : ∃ h', Runs (setLoc (locOf (ids a).getLast?) v) h () h' ∧ Seg h' none a v ∧
      (∀ m, m ∉ ids a → h'.cell m = h.cell m) ∧ h'.first = (if a.isEmpty then v else h.first) ∧
      h'.last = h.last ∧ h'.nxt = h.nxt ∧ h'.fresh = h.fresh := by
  rcases List.eq_nil_or_concat a with rfl | ⟨a', ⟨k, y⟩, e⟩
  · exact ⟨_, runs_modify _ _, trivial, fun _ _ => rfl, rfl, rfl, rfl, rfl⟩
  · rw [List.concat_eq_append] at e
    subst e
    obtain ⟨k1, _, _, _⟩ := nodup_split hn
    obtain ⟨s1, s2, _⟩ := (Seg.append a' _ _ _).mp hs
    have hl : locOf (ids (a' ++ [(k, y)])).getLast? = .cell k := by simp [locOf]
    rw [hl]
    refine ⟨_, runs_change s2 _, ?_, ?_, ?_, rfl, rfl, rfl⟩
    · refine (Seg.append a' _ _ _).mpr ⟨?_, ?_, trivial⟩
      · have : (ids [(k, y)]).head?.or v = (ids [(k, y)]).head?.or nx := rfl
        rw [this]
        exact s1.congr fun m hm => put_other fun e => k1 (e ▸ hm)
      · rw [put_same]
        simp
    · intro m hm
      exact put_other fun e => hm (by simp [ids, e])
    · cases a' <;> rfl

/-- The first cell gets another predecessor, or the last one is gone. -/
theorem setPrev_first {h : Heap} {b : List (Nat × Slot)} {p : Option Nat} (hs : Seg h p b none) (hn : (ids b).Nodup)
    (q : Option Nat) : ∃ h', Runs (setPrev (ids b).head? (locOf q)) h () h' ∧ Seg h' q b none ∧
      (∀ m, m ∉ ids b → h'.cell m = h.cell m) ∧ h'.last = (if b.isEmpty then locOf q else h.last) ∧
      h'.first = h.first ∧ h'.nxt = h.nxt ∧ h'.fresh = h.fresh := by
  cases b with
  | nil => exact ⟨_, runs_modify _ _, trivial, fun _ _ => rfl, rfl, rfl, rfl, rfl⟩
  | cons x b =>
    obtain ⟨m, z⟩ := x
    have k1 : m ∉ ids b := (List.nodup_cons.mp hn).1
    refine ⟨_, runs_change hs.1 _, ⟨put_same, hs.2.congr fun m hm => put_other fun e => k1 (e ▸ hm)⟩, ?_, rfl, rfl, rfl, rfl⟩
    intro m hm
    exact put_other fun e => hm (by simp [ids, e])

/-- A cell is taken out of the list and freed. -/
theorem Rep.remove {h : Heap} {a b : List (Nat × Slot)} {n : Nat} {x : Slot} (r : Rep h (a ++ (n, x) :: b)) :
    ∃ h', Runs (ifaceFree n) h () h' ∧ h'.nxt = h.nxt ∧ h'.fresh = h.fresh ∧ Rep h' (a ++ b) := by
  have hc := r.at
  obtain ⟨k1, k2, k3, k4⟩ := nodup_split r.nodup
  obtain ⟨s1, s2⟩ := (Seg.append a _ _ _).mp r.cells
  have na : (ids a).Nodup := by
    have := k3; simp only [ids, List.map_append] at this; exact (List.nodup_append.mp this).1
  have nb : (ids b).Nodup := by
    have := k3; simp only [ids, List.map_append] at this; exact (List.nodup_append.mp this).2.1
  obtain ⟨h1, r1, t1, o1, l1, f1, x1, y1⟩ := setPrev_first s2.2 nb (ids a).getLast?
  have s1' : Seg h1 none a _ := s1.congr fun m hm => o1 m (k4 m hm)
  obtain ⟨h2, r2, t2, o2, f2, l2, x2, y2⟩ := setLoc_last s1' na (ids b).head?
  have hc1 : h1.cell n = _ := (o1 n k2).trans hc
  have hc2 : h2.cell n = _ := (o2 n k1).trans hc1
  have run : Runs (Tailq.remove n) h () h2 := by
    unfold Tailq.remove
    refine Runs.bind (runs_load hc) ?_
    refine Runs.bind r1 ?_
    refine Runs.bind (runs_load hc1) ?_
    exact r2
  refine ⟨{ h2 with cell := fun m => if m = n then none else h2.cell m }, ?_, x2.trans x1, y2.trans y1, k3, ?_, ?_, ?_, ?_, ?_⟩
  · unfold ifaceFree
    refine Runs.bind run ?_
    intro s
    unfold release
    rw [hc2]
    rfl
  · show h2.first = _
    rw [f2]
    cases a with
    | nil => simp
    | cons q a => rw [f1, r.first]; rfl
  · show h2.last = _
    rw [l2, l1]
    cases b with
    | nil => simp
    | cons q b =>
      rw [r.last]
      simp [ids, List.getLast?_append, List.getLast?_cons]
  · refine (Seg.append a _ _ _).mpr ⟨?_, ?_⟩
    · refine Seg.congr (h := h2) (by simpa using t2) fun m hm => if_neg ?_
      rintro rfl
      exact k1 hm
    · refine Seg.congr (h := h1) (by simpa using t1) fun m hm => ?_
      show (if m = n then none else h2.cell m) = _
      rw [if_neg (by rintro rfl; exact k2 hm)]
      exact o2 m fun ha => k4 m ha hm
  · intro m hm
    show (if m = n then none else h2.cell m) = none
    by_cases e : m = n
    · exact if_pos e
    · rw [if_neg e]
      have hab : m ∉ ids a ∧ m ∉ ids b := by
        refine ⟨fun h => hm ?_, fun h => hm ?_⟩ <;> simp only [ids, List.map_append, List.mem_append] at h ⊢
        · exact .inl h
        · exact .inr h
      rw [o2 m hab.1, o1 m hab.2]
      refine r.dead m fun h => ?_
      simp only [ids, List.map_append, List.mem_append, List.map_cons, List.mem_cons] at h
      rcases h with h | h | h
      · exact hab.1 h
      · exact e h
      · exact hab.2 h
  · intro m hm
    show m < h2.fresh
    rw [y2, y1]
    refine r.fresh m ?_
    simp only [ids, List.map_append, List.mem_append, List.map_cons, List.mem_cons] at hm ⊢
    rcases hm with h | h
    · exact .inl h
    · exact .inr (.inr h)

/-- A new cell at the end of the list. -/
theorem Rep.insert {h : Heap} {l : List (Nat × Slot)} (r : Rep h l) (x : Slot) :
    ∃ h1 h2, Runs (alloc x) h h.fresh h1 ∧ Runs (insertTail h.fresh) h1 () h2 ∧ Rep h2 (l ++ [(h.fresh, x)]) := by
  have hd : h.fresh ∉ ids l := fun m => Nat.lt_irrefl _ (r.fresh _ m)
  let h1 : Heap := { h.put h.fresh ⟨x, none, .head⟩ with fresh := h.fresh + 1 }
  let h2 : Heap := h1.put h.fresh ⟨x, none, .head⟩
  let h3 : Heap := h2.put h.fresh ⟨x, none, h.last⟩
  have c1 : h1.cell h.fresh = some ⟨x, none, .head⟩ := put_same
  have c2 : h2.cell h.fresh = some ⟨x, none, .head⟩ := put_same
  have o3 : ∀ m, m ≠ h.fresh → h3.cell m = h.cell m := fun m e =>
    (put_other e).trans ((put_other e).trans (put_other (h := h) e))
  have s3 : Seg h3 none l none := r.cells.congr fun m hm => o3 m fun e => hd (e ▸ hm)
  obtain ⟨h4, r4, t4, o4, f4, l4, x4, y4⟩ := setLoc_last s3 r.nodup (some h.fresh)
  refine ⟨h1, { h4 with last := .cell h.fresh }, fun _ => rfl, ?_, ?_, ?_, ?_, ?_, ?_, ?_⟩
  · unfold insertTail
    refine Runs.bind (runs_change c1 _) ?_
    refine Runs.bind (runs_peek h2 _) ?_
    refine Runs.bind (runs_change c2 _) ?_
    refine Runs.bind (runs_peek h3 _) ?_
    refine Runs.bind (a := ()) (h1 := h4) ?_ (runs_modify _ _)
    have : h3.last = locOf (ids l).getLast? := r.last
    rw [this]
    exact r4
  · simp only [ids, List.map_append, List.map_cons, List.map_nil]
    rw [List.nodup_append]
    refine ⟨r.nodup, by simp, ?_⟩
    intro u hu v hv e
    simp at hv
    exact hd (by rw [← hv, ← e]; exact hu)
  · show h4.first = _
    rw [f4]
    cases l with
    | nil => rfl
    | cons q l => exact r.first
  · simp [ids, locOf]
  · refine (Seg.append l _ _ _).mpr ⟨t4.congr fun _ _ => rfl, ?_, trivial⟩
    show h4.cell h.fresh = _
    rw [o4 _ hd]
    have : h3.cell h.fresh = some ⟨x, none, h.last⟩ := put_same
    rw [this, r.last]
    simp
  · intro m hm
    show h4.cell m = none
    have hm' : m ∉ ids l ∧ m ≠ h.fresh := by
      refine ⟨fun k => hm ?_, fun k => hm ?_⟩ <;> simp only [ids, List.map_append, List.mem_append]
      · exact .inl k
      · exact .inr (by simp [k])
    rw [o4 m hm'.1, o3 m hm'.2]
    exact r.dead m hm'.1
  · intro m hm
    show m < h4.fresh
    rw [y4]
    show m < h.fresh + 1
    simp only [ids, List.map_append, List.mem_append, List.map_cons, List.map_nil, List.mem_singleton] at hm
    rcases hm with k | k
    · exact Nat.lt_succ_of_lt (r.fresh m k)
    · omega

/-- Only the contents of a cell are changed. -/
theorem Rep.change {h : Heap} {a b : List (Nat × Slot)} {n : Nat} {x y : Slot} (r : Rep h (a ++ (n, x) :: b))
    (f : Cell → Cell) (hf : ∀ p q, f ⟨x, p, q⟩ = ⟨y, p, q⟩) :
    ∃ h', Runs (Tailq.change n f) h () h' ∧ h'.nxt = h.nxt ∧ h'.fresh = h.fresh ∧ Rep h' (a ++ (n, y) :: b) :=
  ⟨_, runs_change r.at f, rfl, rfl, by rw [hf]; exact r.set y⟩

theorem Rep.nxt {h : Heap} {l : List (Nat × Slot)} (r : Rep h l) (v : Option Nat) : Rep { h with nxt := v } l :=
  ⟨r.nodup, r.first, r.last, r.cells.congr fun _ _ => rfl, r.dead, r.fresh⟩

/-! ### Loops over the interfaces -/

theorem Sim.then {p : P α} {m : Proc.M γ} {h : Heap} {Q : α → Heap → γ → Prop} (n : Sim p m h Q) {f : α → P β}
    {Q' : β → Heap → γ → Prop} (k : ∀ a h' b, Q a h' b → ∃ c h2, Runs (f a) h' c h2 ∧ Q' c h2 b) :
    Sim (p >>= f) m h Q' := by
  intro s
  have := n s
  rw [bind_eq]
  cases hm : m s with
  | ok b s' =>
    rw [hm] at this
    obtain ⟨a, h', e, q⟩ := this
    obtain ⟨c, h2, r, q'⟩ := k a h' b q
    rw [e]
    exact ⟨c, h2, r s', q'⟩
  | exit s' =>
    rw [hm] at this
    simp only at this ⊢
    rw [this]
  | ub =>
    rw [hm] at this
    simp only at this ⊢
    rw [this]
  | large =>
    rw [hm] at this
    simp only at this ⊢
    rw [this]

theorem body_sim {h : Heap} {a b : List (Nat × Slot)} {n : Nat} {x : Slot} (r : Rep h (a ++ (n, x) :: b))
    (f : Slot → Proc.M (Option Slot)) : Sim (body f n) (f x) h (fun _ h' y =>
      Rep h' (a ++ (y.toList.map (fun z => (n, z)) ++ b)) ∧ h'.nxt = h.nxt ∧ h'.fresh = h.fresh) := by
  unfold body
  refine Sim.after (runs_load r.at) ?_
  refine Sim.then Sim.lift ?_
  rintro y _ _ ⟨rfl, rfl⟩
  cases y with
  | none =>
    obtain ⟨h', r1, e1, e2, r2⟩ := r.remove
    exact ⟨_, h', r1, r2, e1, e2⟩
  | some y =>
    obtain ⟨h', r1, e1, e2, r2⟩ := r.change (fun c => { c with slot := y }) (y := y) fun _ _ => rfl
    exact ⟨_, h', r1, r2, e1, e2⟩

/-- The iterator steps to the next cell, which is still there. -/
theorem runs_iter {h : Heap} {a b : List (Nat × Slot)} (r : Rep h (a ++ b)) (first : Bool)
    (hi : (if first then h.first else h.nxt) = (ids b).head?) :
    ∃ h', Runs (iter first) h (ids b).head? h' ∧ Rep h' (a ++ b) ∧ h'.fresh = h.fresh ∧
      (b ≠ [] → h'.nxt = (ids b.tail).head?) := by
  cases b with
  | nil =>
    refine ⟨h, ?_, r, rfl, fun e => absurd rfl e⟩
    refine Runs.bind (runs_peek h _) ?_
    rw [hi]
    exact Runs.pure
  | cons x b =>
    obtain ⟨n, x⟩ := x
    refine ⟨{ h with nxt := (ids b).head? }, ?_, r.nxt _, rfl, fun _ => rfl⟩
    refine Runs.bind (runs_peek h _) ?_
    rw [hi]
    refine Runs.bind (runs_load r.at) ?_
    exact Runs.bind (runs_modify _ _) Runs.pure

theorem walk_sim (f : Slot → Proc.M (Option Slot)) : ∀ (b : List (Nat × Slot)) (a : List (Nat × Slot)) (h : Heap) (k : Nat),
    Rep h (a ++ b) → (b ≠ [] → h.nxt = (ids b.tail).head?) → b.length < k →
    Sim (walk f k (ids b).head?) (Proc.forIfaces f (b.map (·.2))) h (fun _ h' t =>
      ∃ l, Rep h' (a ++ l) ∧ l.map (·.2) = t)
  | [], a, h, k + 1, r, _, _ => Sim.pure ⟨[], r, rfl⟩
  | (n, x) :: b, a, h, k + 1, r, e, hk => by
    show Sim (do body f n; let c ← iter false; walk f k c) (do let y ← f x; let t ← Proc.forIfaces f (b.map (·.2)); Pure.pure (y.toList ++ t)) h _
    refine Sim.bind (body_sim r f) ?_
    rintro _ h1 y ⟨r1, e1, _⟩
    rw [← List.append_assoc] at r1
    obtain ⟨h2, q, r2, _, e2⟩ := runs_iter r1 false (by rw [if_neg (by simp), e1, e (by simp)]; rfl)
    refine Sim.after q ?_
    refine Sim.map (walk_sim f b _ h2 k r2 e2 (by simp at hk; omega)) ?_
    rintro _ h3 t ⟨l, r3, rfl⟩
    refine ⟨y.toList.map (fun z => (n, z)) ++ l, by rw [← List.append_assoc]; exact r3, ?_⟩
    cases y <;> simp

/-- A loop over the interfaces does for each what is to be done, and frees no other. -/
theorem forIfaces_sim {h : Heap} {l : List (Nat × Slot)} (r : Rep h l) (f : Slot → Proc.M (Option Slot)) :
    Sim (forIfaces f) (Proc.forIfaces f (l.map (·.2))) h (fun _ h' t => ∃ l', Rep h' l' ∧ l'.map (·.2) = t) := by
  unfold forIfaces
  obtain ⟨h1, q, r1, e, e1⟩ := runs_iter (a := []) r true (by rw [if_pos rfl]; exact r.first)
  refine Sim.after q (Sim.after (runs_peek _ _) ?_)
  exact walk_sim f l [] h1 _ r1 e1 (Nat.lt_succ_of_le r1.size)

theorem findLoop_runs (name : Bytes) : ∀ (b : List (Nat × Slot)) (a : List (Nat × Slot)) (h : Heap) (k : Nat),
    Rep h (a ++ b) → (b ≠ [] → h.nxt = (ids b.tail).head?) → b.length < k →
    ∃ h', Runs (findLoop name k (ids b).head?) h ((b.find? (·.2.i.name == name)).map (·.1)) h' ∧ Rep h' (a ++ b)
  | [], a, h, k + 1, r, _, _ => ⟨h, Runs.pure, r⟩
  | (n, x) :: b, a, h, k + 1, r, e, hk => by
    show ∃ h', Runs (do let c ← load n; if c.slot.i.name == name then Pure.pure (some n) else do let c ← iter false; findLoop name k c) h _ h' ∧ _
    by_cases hx : x.i.name == name
    · refine ⟨h, Runs.bind (runs_load r.at) ?_, r⟩
      simp only [hx, if_true, List.find?_cons, Option.map_some]
      exact Runs.pure
    · have r' := r
      rw [List.append_cons] at r'
      obtain ⟨h2, q, r2, _, e2⟩ := runs_iter r' false (by rw [if_neg (by simp), e (by simp)]; rfl)
      obtain ⟨h3, q3, r3⟩ := findLoop_runs name b _ h2 k r2 e2 (by simp at hk; omega)
      refine ⟨h3, Runs.bind (runs_load r.at) ?_, by rw [List.append_cons]; exact r3⟩
      simp only [hx, List.find?_cons]
      exact Runs.bind q q3

/-- `iface_find` finds the first interface of the name. -/
theorem find_runs {h : Heap} {l : List (Nat × Slot)} (r : Rep h l) (name : Bytes) :
    ∃ h', Runs (find name) h ((l.find? (·.2.i.name == name)).map (·.1)) h' ∧ Rep h' l := by
  obtain ⟨h1, q, r1, e, e1⟩ := runs_iter (a := []) r true (by rw [if_pos rfl]; exact r.first)
  obtain ⟨h2, q2, r2⟩ := findLoop_runs name l [] h1 (h1.fresh + 1) r1 e1 (Nat.lt_succ_of_le r1.size)
  exact ⟨h2, Runs.bind q (Runs.bind (runs_peek _ _) q2), r2⟩

/-! ### The scan of the addresses -/

/-- The interface that is kept from one round to the next is the one of the name that was asked for. -/
def Kept (ifname : Option Bytes) (iface : Option Nat) (l : List (Nat × Slot)) : Prop :=
  iface = none ∨ ∃ name, ifname = some name ∧ iface = (l.find? (·.2.i.name == name)).map (·.1)

theorem take_name (i : Iface) (a : Iface.Addr) : (Iface.take i a).name = i.name := by
  cases a <;> simp only [Iface.take] <;> split <;> rfl

theorem usable_name {name : Bytes} {e : Ifa} {a : Iface.Addr} (h : Iface.usable (some name) e = some a) : name = e.name := by
  simp only [Iface.usable] at h
  split at h
  · cases h
  · split at h
    · cases h
    · split at h
      · cases h
      · split at h
        · cases h
        · rename_i k
          simpa using k

theorem modify_at (f : Iface → Iface) (name : Bytes) {x : Slot} (b : List Slot) (hx : (x.i.name == name) = true) :
    ∀ (a : List Slot), (∀ y ∈ a, (y.i.name == name) = false) →
    Proc.modify f name (a ++ x :: b) = a ++ { x with i := f x.i } :: b
  | [], _ => by simp [Proc.modify, hx]
  | y :: a, h => by
    simp only [List.cons_append, Proc.modify, h y (.head _)]
    rw [modify_at f name b hx a fun z m => h z (.tail _ m)]
    simp

theorem visit_runs (ifname : Option Bytes) (e : Ifa) {h : Heap} {l : List (Nat × Slot)} {iface : Option Nat} (r : Rep h l)
    (k : Kept ifname iface l) : ∃ i' h' l', Runs (visit ifname iface e) h i' h' ∧ Rep h' l' ∧ Kept ifname i' l' ∧
      l'.map (·.2) = Proc.visit ifname (l.map (·.2)) e := by
  cases hu : Iface.usable ifname e with
  | none =>
    refine ⟨iface, h, l, ?_, r, k, ?_⟩
    · simp only [visit, hu]
      exact Runs.pure
    · simp only [Proc.visit, hu]
  | some a =>
    have hp : ∃ h1, Runs (known iface e.name) h
        ((l.find? (·.2.i.name == e.name)).map (·.1)) h1 ∧ Rep h1 l := by
      cases iface with
      | none => exact find_runs r e.name
      | some n =>
        rcases k with k | ⟨name, e1, e2⟩
        · cases k
        · rw [e1] at hu
          rw [← usable_name hu, ← e2]
          exact ⟨h, Runs.pure, r⟩
    obtain ⟨h1, q1, r1⟩ := hp
    have hk : ∀ (m : Nat) (l' : List (Nat × Slot)), (l'.find? (·.2.i.name == e.name)).map (·.1) = some m →
        Kept ifname (if ifname.isSome then some m else none) l' := by
      intro m l' hm
      cases hn : ifname with
      | none => exact .inl rfl
      | some name =>
        rw [hn] at hu
        refine .inr ⟨name, rfl, ?_⟩
        rw [usable_name hu, hm]
        rfl
    cases hf : l.find? (·.2.i.name == e.name) with
    | none =>
      rw [hf] at q1
      obtain ⟨h2, h3, q2, q3, r3⟩ := r1.insert { i := { name := [] } }
      obtain ⟨h4, q4, _, _, r4⟩ := r3.change (fun c => { c with slot := { c.slot with i := { c.slot.i with name := e.name } } })
        (y := { i := { name := e.name } }) fun _ _ => rfl
      obtain ⟨h5, q5, _, _, r5⟩ := r4.change (fun c => { c with slot := { c.slot with i := Iface.take c.slot.i a } })
        (y := { i := Iface.take { name := e.name } a }) fun _ _ => rfl
      refine ⟨_, h5, _, ?_, r5, hk h1.fresh _ ?_, ?_⟩
      · simp only [visit, hu]
        refine Runs.bind q1 ?_
        refine Runs.bind (a := h1.fresh) (h1 := h4) ?_ ?_
        · exact Runs.bind q2 (Runs.bind q3 (Runs.bind q4 Runs.pure))
        · exact Runs.bind q5 Runs.pure
      · rw [List.find?_append, hf]
        simp [take_name]
      · simp only [Proc.visit, hu]
        have : (l.map (·.2)).find? (·.i.name == e.name) = none := by
          rw [List.find?_map]
          rw [show ((fun x : Slot => x.i.name == e.name) ∘ fun x : Nat × Slot => x.2) = (·.2.i.name == e.name) from rfl, hf]
          rfl
        rw [this]
        simp
    | some z =>
      obtain ⟨m, x⟩ := z
      rw [hf] at q1
      obtain ⟨hx, a', b', rfl, ha⟩ := List.find?_eq_some_iff_append.mp hf
      obtain ⟨h4, q4, _, _, r4⟩ := r1.change (fun c => { c with slot := { c.slot with i := { c.slot.i with unused := false } } })
        (y := { x with i := { x.i with unused := false } }) fun _ _ => rfl
      obtain ⟨h5, q5, _, _, r5⟩ := r4.change (fun c => { c with slot := { c.slot with i := Iface.take c.slot.i a } })
        (y := { x with i := Iface.take { x.i with unused := false } a }) fun _ _ => rfl
      refine ⟨_, h5, _, ?_, r5, hk m _ ?_, ?_⟩
      · simp only [visit, hu]
        refine Runs.bind q1 ?_
        refine Runs.bind (a := m) (h1 := h4) ?_ ?_
        · exact Runs.bind q4 Runs.pure
        · exact Runs.bind q5 Runs.pure
      · rw [List.find?_append]
        have : a'.find? (·.2.i.name == e.name) = none := by
          rw [List.find?_eq_none]
          intro y hy
          simpa using ha y hy
        rw [this]
        simp only [List.find?_cons, take_name]
        rw [show (x.i.name == e.name) = true from hx]
        rfl
      · simp only [Proc.visit, hu]
        have : ((a' ++ (m, x) :: b').map (·.2)).find? (·.i.name == e.name) = some x := by
          rw [List.find?_map]
          rw [show ((fun x : Slot => x.i.name == e.name) ∘ fun x : Nat × Slot => x.2) = (·.2.i.name == e.name) from rfl, hf]
          rfl
        rw [this]
        simp only [List.map_append, List.map_cons]
        rw [modify_at]
        · exact hx
        · intro y hy
          obtain ⟨z, hz, rfl⟩ := List.mem_map.mp hy
          simpa using ha z hz

theorem visits_runs (ifname : Option Bytes) : ∀ (es : List Ifa) (h : Heap) (l : List (Nat × Slot)) (iface : Option Nat),
    Rep h l → Kept ifname iface l → ∃ h' l', Runs (visits ifname iface es) h () h' ∧ Rep h' l' ∧
      l'.map (·.2) = es.foldl (Proc.visit ifname) (l.map (·.2))
  | [], h, l, _, r, _ => ⟨h, l, Runs.pure, r, rfl⟩
  | e :: es, h, l, iface, r, k => by
    obtain ⟨i', h1, l1, q1, r1, k1, e1⟩ := visit_runs ifname e r k
    obtain ⟨h2, l2, q2, r2, e2⟩ := visits_runs ifname es h1 l1 i' r1 k1
    exact ⟨h2, l2, Runs.bind q1 q2, r2, by rw [e2, e1]; rfl⟩

theorem forIfaces_pure (g : Slot → Slot) : ∀ (t : List Slot),
    Proc.forIfaces (fun x => (Pure.pure (some (g x)) : Proc.M _)) t = Pure.pure (t.map g)
  | [] => rfl
  | x :: t => by
    show ((Pure.pure (some (g x)) : Proc.M _) >>= fun y => Proc.forIfaces _ t >>= fun t => Pure.pure (y.toList ++ t)) = _
    rw [forIfaces_pure g t]
    rfl

theorem Sim.runs {p : P α} {h : Heap} {b : β} {Q : α → Heap → β → Prop} (n : Sim p (Pure.pure b : Proc.M β) h Q) :
    ∀ s, ∃ a h', p h s = .ok (a, h') s ∧ Q a h' b := n

theorem scan_sim (ifname : Option Bytes) (es : Option (List Ifa)) {h : Heap} {l : List (Nat × Slot)} (r : Rep h l) :
    Sim (scan ifname es) (Pure.pure (Proc.scan ifname es (l.map (·.2))) : Proc.M _) h
      (fun _ h' t => ∃ l', Rep h' l' ∧ l'.map (·.2) = t) := by
  cases es with
  | none => exact Sim.pure ⟨l, r, rfl⟩
  | some es =>
    have e1 : (Pure.pure (Proc.scan ifname (some es) (l.map (·.2))) : Proc.M _) =
        (Proc.forIfaces (fun x => Pure.pure (some { x with i := Iface.mark1 x.i })) (l.map (·.2)) >>= fun t =>
          (Pure.pure (es.foldl (Proc.visit ifname) t) : Proc.M _) >>= fun t =>
          Proc.forIfaces (fun x => Pure.pure (some { x with i := Iface.sweep1 x.i })) t) := by
      rw [forIfaces_pure (fun x : Slot => { x with i := Iface.mark1 x.i })]
      simp only [forIfaces_pure (fun x : Slot => { x with i := Iface.sweep1 x.i })]
      rfl
    rw [e1]
    refine Sim.bind (forIfaces_sim r _) ?_
    rintro _ h1 t ⟨l1, r1, rfl⟩
    obtain ⟨h2, l2, q2, r2, e2⟩ := visits_runs ifname es h1 l1 none r1 (.inl rfl)
    refine Sim.bind (Runs.sim q2 (Q := fun _ h' t => ∃ l', Rep h' l' ∧ l'.map (·.2) = t) ⟨l2, r2, e2⟩) ?_
    rintro _ h3 t ⟨l3, r3, rfl⟩
    exact forIfaces_sim r3 _

/-! ### The program -/

/-- The memory has a list of these interfaces. -/
abbrev Has (_ : α) (h : Heap) (t : List Slot) : Prop := ∃ l, Rep h l ∧ l.map (·.2) = t

theorem sysInit_sim (ifname : Option Bytes) (e : Proc.Env) (es : Option (List Ifa)) {h : Heap} {l : List (Nat × Slot)} (r : Rep h l) :
    Sim (sysInit ifname e es) (Proc.sysInit ifname e es (l.map (·.2))) h Has := by
  have e1 : Proc.sysInit ifname e es (l.map (·.2)) =
    ((Pure.pure (Proc.scan ifname es (l.map (·.2))) : Proc.M _) >>= Proc.forIfaces (setupIface e)) := rfl
  rw [e1]
  refine Sim.bind (scan_sim ifname es r) ?_
  rintro _ h1 t ⟨l1, r1, rfl⟩
  exact forIfaces_sim r1 _

theorem scans_sim (ifname : Option Bytes) : ∀ (es : List (Proc.Env × Option (List Ifa))) (h : Heap) (l : List (Nat × Slot)), Rep h l →
    Sim (scans ifname es) (Proc.scans ifname es (l.map (·.2))) h Has
  | [], h, l, r => Sim.pure ⟨l, r, rfl⟩
  | (e, es) :: rest, h, l, r => by
    refine Sim.bind (sysInit_sim ifname e es r) ?_
    rintro _ h1 t ⟨l1, r1, rfl⟩
    exact scans_sim ifname rest h1 l1 r1

theorem bind_ok {m : Proc.M α} {g : α → Proc.M β} {s s' : Sys} {b : β} (h : (m >>= g) s = .ok b s') :
    ∃ a s1, m s = .ok a s1 ∧ g a s1 = .ok b s' := by
  have e1 : (m >>= g) s = (match m s with | .ok a s => g a s | .exit s => .exit s | .ub => .ub | .large => .large) := rfl
  rw [e1] at h
  cases hm : m s with
  | ok a s1 => rw [hm] at h; exact ⟨a, s1, rfl, h⟩
  | exit s1 => rw [hm] at h; cases h
  | ub => rw [hm] at h; cases h
  | large => rw [hm] at h; cases h

/-- A loop that keeps all interfaces as they are. -/
theorem forIfaces_keeps {f : Slot → Proc.M (Option Slot)} (hf : ∀ x s y s', f x s = .ok y s' → y = some x) :
    ∀ (t : List Slot) (s : Sys) (t' : List Slot) (s' : Sys), Proc.forIfaces f t s = .ok t' s' → t' = t
  | [], s, t', s', h => by cases h; rfl
  | x :: t, s, t', s', h => by
    obtain ⟨y, s1, h1, h2⟩ := bind_ok h
    obtain ⟨u, s2, h3, h4⟩ := bind_ok h2
    cases h4
    rw [hf _ _ _ _ h1, forIfaces_keeps hf t _ _ _ h3]
    rfl

theorem Sim.result {p : P α} {m : Proc.M β} {h : Heap} {Q : α → Heap → β → Prop} (n : Sim p m h Q) {R : β → Prop}
    (k : ∀ s b s', m s = .ok b s' → R b) : Sim p m h (fun a h' b => Q a h' b ∧ R b) := by
  intro s
  have := n s
  cases hm : m s with
  | ok b s' =>
    rw [hm] at this
    obtain ⟨a, h', e, q⟩ := this
    exact ⟨a, h', e, q, k s b s' hm⟩
  | exit s' => rw [hm] at this; exact this
  | ub => rw [hm] at this; exact this
  | large => rw [hm] at this; exact this

theorem waitFor_sim (nl : Option Nat) {h : Heap} {l : List (Nat × Slot)} (r : Rep h l) :
    Sim (waitFor nl) (Proc.waitFor nl (l.map (·.2))) h (fun _ h' _ => Has () h' (l.map (·.2))) := by
  unfold waitFor Proc.waitFor
  refine Sim.bind Sim.lift ?_
  rintro _ _ _ ⟨_, rfl⟩
  refine Sim.map (Sim.result (forIfaces_sim r _) (R := fun t => t = l.map (·.2)) ?_) ?_
  · intro s t s' h
    refine forIfaces_keeps ?_ _ _ _ _ h
    intro x s y s' h
    split at h
    · cases h; rfl
    · obtain ⟨_, _, _, h⟩ := bind_ok h
      obtain ⟨_, _, _, h⟩ := bind_ok h
      cases h
      rfl
  · rintro _ h' t ⟨q, rfl⟩
    exact q

theorem round_sim (ifname : Option Bytes) (nl : Option Nat) (ev : Ev) {h : Heap} {l : List (Nat × Slot)} (r : Rep h l) :
    Sim (round ifname nl ev) (Proc.round ifname nl ev (l.map (·.2))) h Has := by
  unfold round Proc.round
  refine Sim.bind (waitFor_sim nl r) ?_
  rintro _ h1 _ ⟨l1, r1, e1⟩
  rw [← e1]
  cases ev with
  | interrupted => exact Sim.pure ⟨l1, r1, rfl⟩
  | reload e es =>
    refine Sim.bind (sysInit_sim ifname e es r1) ?_
    rintro _ h2 t ⟨l2, r2, rfl⟩
    exact forIfaces_sim r2 _
  | work sc ok4 ok6 =>
    refine Sim.bind Sim.lift ?_
    rintro _ _ _ ⟨_, rfl⟩
    refine Sim.bind (scans_sim ifname sc _ l1 r1) ?_
    rintro _ h2 t ⟨l2, r2, rfl⟩
    exact forIfaces_sim r2 _

theorem rounds_sim (ifname : Option Bytes) (nl : Option Nat) : ∀ (evs : List Ev) (h : Heap) (l : List (Nat × Slot)), Rep h l →
    Sim (rounds ifname nl evs) (Proc.rounds ifname nl evs (l.map (·.2))) h Has
  | [], h, l, r => Sim.pure ⟨l, r, rfl⟩
  | ev :: evs, h, l, r => by
    refine Sim.bind (round_sim ifname nl ev r) ?_
    rintro _ h1 t ⟨l1, r1, rfl⟩
    exact rounds_sim ifname nl evs h1 l1 r1

/-- The loop of the end frees all that is left. -/
theorem exitLoop_runs : ∀ (l : List (Nat × Slot)) (h : Heap) (k : Nat), Rep h l → l.length < k →
    ∃ h', Runs (exitLoop k (ids l).head?) h () h' ∧ Rep h' []
  | [], h, k + 1, r, _ => ⟨h, Runs.pure, r⟩
  | (n, x) :: l, h, k + 1, r, hk => by
    obtain ⟨h1, q1, _, _, r1⟩ := r.remove (a := [])
    obtain ⟨h2, q2, r2⟩ := exitLoop_runs l h1 k r1 (by simp at hk; omega)
    refine ⟨h2, ?_, r2⟩
    show Runs (do let c ← load n; remove n; release n; exitLoop k c.next) h () h2
    refine Runs.bind (r.at (a := []) |> runs_load) ?_
    intro s
    have e := q1 s
    unfold ifaceFree at e
    rw [bind_eq] at e ⊢
    cases hr : remove n h s with
    | ok a s1 =>
      rw [hr] at e
      simp only at e ⊢
      rw [bind_eq, e]
      exact q2 s
    | exit s1 => rw [hr] at e; cases e
    | ub => rw [hr] at e; cases e
    | large => rw [hr] at e; cases e

theorem ifaceExit_runs {h : Heap} {l : List (Nat × Slot)} (r : Rep h l) : ∃ h', Runs ifaceExit h () h' ∧ Rep h' [] := by
  obtain ⟨h1, q1, r1⟩ := exitLoop_runs l h (h.fresh + 1) r (Nat.lt_succ_of_le r.size)
  refine ⟨h1, Runs.bind (runs_peek _ _) (Runs.bind (runs_peek _ _) ?_), r1⟩
  rw [r.first]
  exact q1

theorem main_sim (ifname : Option Bytes) (e : Proc.Env) (es : Option (List Ifa)) (sock : Sock) (evs : List Ev) :
    Sim (main ifname e es sock evs) (Proc.main ifname e es sock evs) {} (fun _ h _ => Rep h []) := by
  have e1 : Proc.main ifname e es sock evs = (Proc.sysInit ifname e es [] >>= fun t => socket e sock >>= fun nl =>
      Proc.rounds ifname nl evs t >>= fun t => Proc.forIfaces (fun x => do freeIface x; Pure.pure none) t >>= fun _ =>
      whenSome nl close) := by
    funext s
    unfold Proc.main start finish
    simp only [Bind.bind]
    cases Proc.sysInit ifname e es [] s with
    | ok t s =>
      simp only
      cases socket e sock s <;> rfl
    | exit s => rfl
    | ub => rfl
    | large => rfl
  rw [e1]
  refine Sim.bind (sysInit_sim ifname e es Rep.empty) ?_
  rintro _ h1 t ⟨l1, r1, rfl⟩
  refine Sim.bind Sim.lift ?_
  rintro nl _ _ ⟨rfl, rfl⟩
  refine Sim.bind (rounds_sim ifname nl evs _ l1 r1) ?_
  rintro _ h2 t ⟨l2, r2, rfl⟩
  refine Sim.bind (forIfaces_sim r2 _) ?_
  rintro _ h3 t ⟨l3, r3, rfl⟩
  obtain ⟨h4, q4, r4⟩ := ifaceExit_runs r3
  refine Sim.after q4 ?_
  refine Sim.mono Sim.lift ?_
  rintro _ _ _ ⟨_, rfl⟩
  exact r4

end Mdns.Tailq
