import Verif.Model.Blocks

/-!
# C111: the library gives back all its memory, and frees nothing twice
-/

namespace Mdns.Blocks

/-! ## The specification -/

/-- The block of a pointer. -/
def Str.ids : Str → List Nat
  | none => []
  | some p => [p.1]

/-- The blocks of a record. -/
def Hold.ids (x : Hold) : List Nat := x.self :: (Str.ids x.name ++ Str.ids x.rdata ++ Str.ids x.rdname)

/-- The blocks of a query. -/
def qids (q : Nat × (Nat × Bytes)) : List Nat := [q.1, q.2.1]

/-- Every block that can be reached from the context, as often as it can be reached. -/
def St.blocks (s : St) : List Nat :=
  s.recs.flatMap Hold.ids ++ s.cached.flatMap Hold.ids ++ s.queries.flatMap qids ++ s.replies

/-- The blocks in use are those of the context, each reached once, and those of the rest of the program (`base`). -/
def Sound (base : List Nat) (s : St) : Prop :=
  (∀ a, s.heap.live.count a = s.blocks.count a + base.count a) ∧ (∀ a, a ∈ s.heap.live → a < s.heap.next) ∧ s.heap.live.Nodup

/-- A string that can be read. -/
def Arg.good (s : St) : Arg → Prop
  | .text _ => True
  | .block p => p.1 ∈ s.heap.live

/-- A string that is not `own`. -/
def Arg.other (own : Str) : Arg → Prop
  | .text _ => True
  | .block p => p.1 ∉ Str.ids own

/-- What callers have to see to: records, entries and queries exist, strings can be read, and a record is not given its own
data. -/
def Op.fine (s : St) : Op → Prop
  | .shared host _ _ => host.good s
  | .setHost k name _ => name.good s ∧ ∃ x, s.recs[k]? = some x ∧ name.other x.rdname
  | .setRaw k data _ => data.good s ∧ ∃ x, s.recs[k]? = some x ∧ data.other x.rdata
  | .freeRec k => k < s.recs.length
  | .cache .. => True
  | .uncache k => k < s.cached.length
  | .query host _ _ => host.good s
  | .unquery k => k < s.queries.length
  | .push _ => True
  | .pop k => k < s.replies.length

/-- Callers do so all the way. -/
def Fine (s : St) : List Op → Prop
  | [] => True
  | o :: os => o.fine s ∧ ∀ s', step s o = .ok s' → Fine s' os

/-- What can be seen of a record: its name and data. -/
structure Seen where
  name : Option Bytes
  rdata : Option Bytes := none
  rdname : Option Bytes := none
deriving Repr, DecidableEq

/-- What can be seen of the context: records, cached records, queries and the number of pending answers. -/
structure View where
  recs : List Seen := []
  cached : List Seen := []
  queries : List Bytes := []
  replies : Nat := 0
deriving Repr, DecidableEq

/-- Of one record. -/
def Hold.seen (x : Hold) : Seen := ⟨x.name.map (·.2), x.rdata.map (·.2), x.rdname.map (·.2)⟩

/-- Of the context. -/
def St.view (s : St) : View := ⟨s.recs.map Hold.seen, s.cached.map Hold.seen, s.queries.map (·.2.2), s.replies.length⟩

/-- The text passed. -/
def Arg.bytes : Arg → Bytes
  | .text b => b
  | .block p => p.2

/-- What a call is to do, without memory: what cannot be had is not there, and nothing else changes. -/
def View.after (v : View) : Op → View
  | .shared host m1 m2 => if m1 ∧ m2 then { v with recs := { name := some host.bytes } :: v.recs } else v
  | .setHost k name m => { v with recs := v.recs.modify k fun x => { x with rdname := if m then some name.bytes else none } }
  | .setRaw k data m => { v with recs := v.recs.modify k fun x => { x with rdata := if m then some data.bytes else none } }
  | .freeRec k => { v with recs := v.recs.eraseIdx k }
  | .cache name rdata rdname m1 m2 m3 m4 =>
    if m1 ∧ m2 ∧ (rdata = none ∨ m3) then
      { v with cached := ⟨some name, rdata, if m4 then rdname else none⟩ :: v.cached }
    else v
  | .uncache k => { v with cached := v.cached.eraseIdx k }
  | .query host m1 m2 => if m1 ∧ m2 then { v with queries := host.bytes :: v.queries } else v
  | .unquery k => { v with queries := v.queries.eraseIdx k }
  | .push m => { v with replies := v.replies + if m then 1 else 0 }
  | .pop _ => { v with replies := v.replies - 1 }

/-! ## Heaps and lists of blocks -/

/-- In use are exactly the blocks of `L`. -/
private def Has (h : Heap) (L : List Nat) : Prop :=
  (∀ a, h.live.count a = L.count a) ∧ (∀ a, a ∈ h.live → a < h.next) ∧ h.live.Nodup

private theorem Has.congr {h : Heap} {L L' : List Nat} (i : Has h L) (e : ∀ a, L.count a = L'.count a) : Has h L' :=
  ⟨fun a => (i.1 a).trans (e a), i.2.1, i.2.2⟩

private theorem Has.mem {h : Heap} {L : List Nat} (i : Has h L) {a : Nat} : a ∈ h.live ↔ a ∈ L := by
  rw [← List.count_pos_iff, ← List.count_pos_iff, i.1 a]

private theorem free_has {h : Heap} {a : Nat} {L : List Nat} (i : Has h (a :: L)) : ∃ h', free a h = .ok h' ∧ Has h' L := by
  have m : a ∈ h.live := i.mem.2 (by simp)
  refine ⟨_, if_pos m, fun b => ?_, fun b hb => i.2.1 b (List.mem_of_mem_erase hb), i.2.2.erase a⟩
  have e := i.1 b
  show (h.live.erase a).count b = _
  rw [List.count_erase, e, List.count_cons]
  omega

private theorem freeStr_has {h : Heap} {p : Str} {L : List Nat} (i : Has h (Str.ids p ++ L)) :
    ∃ h', freeStr p h = .ok h' ∧ Has h' L := by
  cases p with
  | none => exact ⟨h, rfl, i⟩
  | some p => exact free_has i

private theorem freeHold_has {h : Heap} {x : Hold} {L : List Nat} (i : Has h (x.ids ++ L)) :
    ∃ h', freeHold x h = .ok h' ∧ Has h' L := by
  obtain ⟨h1, e1, i1⟩ := freeStr_has (p := x.name) (L := Str.ids x.rdata ++ (Str.ids x.rdname ++ (x.self :: L)))
    (i.congr (by intro a; simp only [Hold.ids, List.count_append, List.count_cons]; omega))
  obtain ⟨h2, e2, i2⟩ := freeStr_has i1
  obtain ⟨h3, e3, i3⟩ := freeStr_has i2
  obtain ⟨h4, e4, i4⟩ := free_has i3
  exact ⟨h4, by simp [freeHold, e1, e2, e3, e4, Hp.bind], i4⟩

private theorem freeQuery_has {h : Heap} {q : Nat × (Nat × Bytes)} {L : List Nat} (i : Has h (qids q ++ L)) :
    ∃ h', freeQuery q h = .ok h' ∧ Has h' L := by
  obtain ⟨h1, e1, i1⟩ := free_has (a := q.2.1) (L := q.1 :: L)
    (i.congr (by intro a; simp only [qids, List.count_append, List.count_cons, List.count_nil]; omega))
  obtain ⟨h2, e2, i2⟩ := free_has i1
  exact ⟨h2, by simp [freeQuery, e1, e2, Hp.bind], i2⟩

private theorem each_has {α : Type} {f : α → Heap → Hp Heap} {g : α → List Nat}
    (hf : ∀ x h L, Has h (g x ++ L) → ∃ h', f x h = .ok h' ∧ Has h' L) (xs : List α) :
    ∀ (h : Heap) (L : List Nat), Has h (xs.flatMap g ++ L) → ∃ h', each f xs h = .ok h' ∧ Has h' L := by
  induction xs with
  | nil => exact fun h L i => ⟨h, rfl, i⟩
  | cons x xs ih =>
    intro h L i
    obtain ⟨h1, e1, i1⟩ := hf x h (xs.flatMap g ++ L) (by simpa using i)
    obtain ⟨h2, e2, i2⟩ := ih h1 L i1
    exact ⟨h2, by simp [each, e1, e2, Hp.bind], i2⟩

private theorem fresh {h : Heap} {L : List Nat} (i : Has h L) :
    Has { next := h.next + 1, live := h.next :: h.live } (h.next :: L) := by
  refine ⟨fun a => ?_, fun a ha => ?_, ?_⟩
  · simp only [List.count_cons, i.1 a]
  · rcases List.mem_cons.1 ha with e | e
    · exact e ▸ Nat.lt_succ_self _
    · exact Nat.lt_succ_of_lt (i.2.1 a e)
  · exact List.nodup_cons.2 ⟨fun m => Nat.lt_irrefl _ (i.2.1 _ m), i.2.2⟩

private theorem alloc_has {h : Heap} {L : List Nat} (m : Bool) (i : Has h L) :
    (alloc m h = (none, h)) ∨ ∃ a h', alloc m h = (some a, h') ∧ Has h' (a :: L) := by
  cases m
  · exact .inl rfl
  · exact .inr ⟨_, _, rfl, fresh i⟩

private theorem dup_has {h : Heap} {L : List Nat} (m : Bool) (b : Bytes) (i : Has h L) :
    (dup m b h = (none, h)) ∨ ∃ a h', dup m b h = (some (a, b), h') ∧ Has h' (a :: L) := by
  cases m
  · exact .inl rfl
  · exact .inr ⟨_, _, rfl, fresh i⟩

private theorem count_at {α : Type} (g : α → List Nat) (x : α) : ∀ (l : List α) (k : Nat), l[k]? = some x →
    (∀ a, (l.flatMap g).count a = (g x).count a + ((l.eraseIdx k).flatMap g).count a) ∧
    ∀ y a, ((l.set k y).flatMap g).count a = (g y).count a + ((l.eraseIdx k).flatMap g).count a := by
  intro l
  induction l with
  | nil => intro k e; simp at e
  | cons z l ih =>
    intro k e
    cases k with
    | zero =>
      simp at e
      subst e
      simp [List.count_append]
    | succ k =>
      have := ih k (by simpa using e)
      constructor
      · intro a
        have := this.1 a
        simp only [List.flatMap_cons, List.count_append, List.eraseIdx_cons_succ] at this ⊢
        omega
      · intro y a
        have := this.2 y a
        simp only [List.flatMap_cons, List.count_append, List.eraseIdx_cons_succ, List.set_cons_succ] at this ⊢
        omega

private theorem map_eraseIdx {α β : Type} (f : α → β) : ∀ (l : List α) (k : Nat), (l.eraseIdx k).map f = (l.map f).eraseIdx k
  | [], _ => by simp
  | _ :: _, 0 => by simp
  | _ :: l, k + 1 => by simp [map_eraseIdx f l k]

private theorem Sound.has {base : List Nat} {s : St} (i : Sound base s) : Has s.heap (s.blocks ++ base) :=
  ⟨fun a => by rw [List.count_append]; exact i.1 a, i.2⟩

private theorem Has.sound {base : List Nat} {s : St} (i : Has s.heap (s.blocks ++ base)) : Sound base s :=
  ⟨fun a => by have := i.1 a; rwa [List.count_append] at this, i.2⟩

private theorem read_good {s : St} {x : Arg} (g : x.good s) : ∃ b, x.read s.heap = .ok b := by
  cases x with
  | text b => exact ⟨b, rfl⟩
  | block p => exact ⟨p.2, if_pos g⟩

private theorem read_never {h : Heap} (x : Arg) : (∃ b, x.read h = .ok b) ∨ x.read h = .stale := by
  cases x with
  | text b => exact .inl ⟨b, rfl⟩
  | block p =>
    by_cases m : p.1 ∈ h.live
    · exact .inl ⟨p.2, if_pos m⟩
    · exact .inr (if_neg m)

private theorem read_bytes {h : Heap} {x : Arg} {b : Bytes} (e : x.read h = .ok b) : b = x.bytes := by
  cases x with
  | text c => simpa [Arg.read, Arg.bytes] using e.symm
  | block p =>
    simp only [Arg.read] at e
    split at e
    · simpa [Arg.bytes] using e.symm
    · simp at e

/-- What one call does: it is carried out as described, or a string is read that is not there, and that is the caller's fault. -/
private def Good (base : List Nat) (s : St) (o : Op) (r : Hp St) : Prop :=
  (∃ s', r = .ok s' ∧ Sound base s' ∧ s'.view = s.view.after o) ∨ (r = .stale ∧ ¬ o.fine s)

private theorem shared_good {base : List Nat} {s : St} (i : Sound base s) (host : Arg) (m1 m2 : Bool) :
    Good base s (.shared host m1 m2) (shared s host m1 m2) := by
  rcases read_never (h := s.heap) host with ⟨b, e⟩ | e
  · have eb := read_bytes e
    subst eb
    left
    cases m1
    · exact ⟨s, by simp [shared, e, Hp.bind, alloc], i, by simp [View.after]⟩
    · have i1 := fresh i.has
      cases m2
      · obtain ⟨h', e', i'⟩ := free_has i1
        refine ⟨{ s with heap := h' }, ?_, Has.sound i', by simp [View.after, St.view]⟩
        simp [shared, e, Hp.bind, alloc, dup, e']
      · have i2 := fresh i1
        refine ⟨_, by simp only [shared, e, Hp.bind, alloc, dup, if_pos, Option.map_some]; rfl, ?_,
          by simp [View.after, St.view, Hold.seen]⟩
        refine Has.sound (i2.congr ?_)
        intro a
        simp [St.blocks, Hold.ids, Str.ids, List.count_cons, List.count_append]
        omega
  · right
    refine ⟨by simp [shared, e, Hp.bind], fun g => ?_⟩
    obtain ⟨b, eb⟩ := read_good (s := s) g
    simp [e] at eb

private theorem query_good {base : List Nat} {s : St} (i : Sound base s) (host : Arg) (m1 m2 : Bool) :
    Good base s (.query host m1 m2) (query s host m1 m2) := by
  rcases read_never (h := s.heap) host with ⟨b, e⟩ | e
  · have eb := read_bytes e
    subst eb
    left
    cases m1
    · exact ⟨s, by simp [query, e, Hp.bind, alloc], i, by simp [View.after]⟩
    · have i1 := fresh i.has
      cases m2
      · obtain ⟨h', e', i'⟩ := free_has i1
        refine ⟨{ s with heap := h' }, ?_, Has.sound i', by simp [View.after, St.view]⟩
        simp [query, e, Hp.bind, alloc, dup, e']
      · have i2 := fresh i1
        refine ⟨_, by simp only [query, e, Hp.bind, alloc, dup, if_pos, Option.map_some]; rfl, ?_,
          by simp [View.after, St.view]⟩
        refine Has.sound (i2.congr ?_)
        intro a
        simp [St.blocks, qids, List.count_cons, List.count_append]
        omega
  · right
    refine ⟨by simp [query, e, Hp.bind], fun g => ?_⟩
    obtain ⟨b, eb⟩ := read_good (s := s) g
    simp [e] at eb

private theorem push_good {base : List Nat} {s : St} (i : Sound base s) (m : Bool) : Good base s (.push m) (push s m) := by
  left
  cases m
  · exact ⟨s, by simp [push, alloc], i, by simp [View.after]⟩
  · refine ⟨_, by simp only [push, alloc, if_pos]; rfl, ?_, by simp [View.after, St.view]⟩
    refine Has.sound ((fresh i.has).congr ?_)
    intro a
    simp [St.blocks, List.count_cons, List.count_append]
    omega

private theorem pop_good {base : List Nat} {s : St} (i : Sound base s) (k : Nat) : Good base s (.pop k) (pop s k) := by
  cases e : s.replies[k]? with
  | none =>
    right
    refine ⟨by simp [pop, e], fun g => ?_⟩
    have : k < s.replies.length := g
    simp at e
    omega
  | some u =>
    left
    have c := (count_at (fun a : Nat => [a]) u s.replies k e).1
    simp only [List.flatMap_singleton', List.count_singleton] at c
    obtain ⟨h', e', i'⟩ := free_has (a := u) (L := ({ s with replies := s.replies.eraseIdx k } : St).blocks ++ base)
      (i.has.congr (by
        intro a
        have := c a
        simp only [St.blocks, List.count_append, List.count_cons]
        omega))
    refine ⟨_, by simp only [pop, e, e', Hp.bind]; rfl, ?_, ?_⟩
    · exact Has.sound i'
    have : k < s.replies.length := (List.getElem?_eq_some_iff.1 e).1
    simp [View.after, St.view, List.length_eraseIdx, this]

private theorem unquery_good {base : List Nat} {s : St} (i : Sound base s) (k : Nat) :
    Good base s (.unquery k) (unquery s k) := by
  cases e : s.queries[k]? with
  | none =>
    right
    refine ⟨by simp [unquery, e], fun g => ?_⟩
    have : k < s.queries.length := g
    simp at e
    omega
  | some q =>
    left
    have c := (count_at qids q s.queries k e).1
    obtain ⟨h', e', i'⟩ := freeQuery_has (q := q) (L := ({ s with queries := s.queries.eraseIdx k } : St).blocks ++ base)
      (i.has.congr (by
        intro a
        have := c a
        simp only [St.blocks, List.count_append]
        omega))
    refine ⟨_, by simp only [unquery, e, e', Hp.bind]; rfl, ?_, ?_⟩
    · exact Has.sound i'
    simp [View.after, St.view, map_eraseIdx]

private theorem uncache_good {base : List Nat} {s : St} (i : Sound base s) (k : Nat) :
    Good base s (.uncache k) (uncache s k) := by
  cases e : s.cached[k]? with
  | none =>
    right
    refine ⟨by simp [uncache, e], fun g => ?_⟩
    have : k < s.cached.length := g
    simp at e
    omega
  | some q =>
    left
    have c := (count_at Hold.ids q s.cached k e).1
    obtain ⟨h', e', i'⟩ := freeHold_has (x := q) (L := ({ s with cached := s.cached.eraseIdx k } : St).blocks ++ base)
      (i.has.congr (by
        intro a
        have := c a
        simp only [St.blocks, List.count_append]
        omega))
    refine ⟨_, by simp only [uncache, e, e', Hp.bind]; rfl, ?_, ?_⟩
    · exact Has.sound i'
    simp [View.after, St.view, map_eraseIdx]

private theorem freeRec_good {base : List Nat} {s : St} (i : Sound base s) (k : Nat) :
    Good base s (.freeRec k) (freeRec s k) := by
  cases e : s.recs[k]? with
  | none =>
    right
    refine ⟨by simp [freeRec, e], fun g => ?_⟩
    have : k < s.recs.length := g
    simp at e
    omega
  | some q =>
    left
    have c := (count_at Hold.ids q s.recs k e).1
    obtain ⟨h', e', i'⟩ := freeHold_has (x := q) (L := ({ s with recs := s.recs.eraseIdx k } : St).blocks ++ base)
      (i.has.congr (by
        intro a
        have := c a
        simp only [St.blocks, List.count_append]
        omega))
    refine ⟨_, by simp only [freeRec, e, e', Hp.bind]; rfl, ?_, ?_⟩
    · exact Has.sound i'
    simp [View.after, St.view, map_eraseIdx]

/-- A string that was there, and is not what was freed, is still there. -/
private theorem still {s : St} {own : Str} {h' : Heap} {L : List Nat} {x : Arg} (i : Has s.heap (Str.ids own ++ L))
    (i' : Has h' L) (g : x.good s) (n : x.other own) : ∃ b, x.read h' = .ok b := by
  cases x with
  | text b => exact ⟨b, rfl⟩
  | block p =>
    refine ⟨p.2, if_pos (i'.mem.2 ?_)⟩
    rcases List.mem_append.1 (i.mem.1 g) with m | m
    · exact absurd m n
    · exact m

private theorem map_set_modify (l : List Hold) (k : Nat) (x y : Hold) (f : Seen → Seen) (e : l[k]? = some x)
    (hy : y.seen = f x.seen) : (l.set k y).map Hold.seen = (l.map Hold.seen).modify k f := by
  apply List.ext_getElem?
  intro n
  by_cases hn : k = n
  · subst hn
    obtain ⟨lt, e⟩ := List.getElem?_eq_some_iff.1 e
    simp [lt, hy, e]
  · simp [hn]

private theorem setHost_good {base : List Nat} {s : St} (i : Sound base s) (k : Nat) (name : Arg) (m : Bool) :
    Good base s (.setHost k name m) (setHost s k name m) := by
  cases e : s.recs[k]? with
  | none =>
    right
    refine ⟨by simp [setHost, e], fun g => ?_⟩
    obtain ⟨x, ex, _⟩ := g.2
    simp [e] at ex
  | some x =>
    have c := count_at Hold.ids x s.recs k e
    have i0 : Has s.heap (Str.ids x.rdname ++ (({ s with recs := s.recs.set k { x with rdname := none } } : St).blocks ++ base)) :=
      i.has.congr (by
        intro a
        have c1 := c.1 a
        have c2 := c.2 { x with rdname := none } a
        simp only [St.blocks, List.count_append, Hold.ids, Str.ids, List.count_cons, List.count_nil] at c1 c2 ⊢
        omega)
    obtain ⟨h1, e1, i1⟩ := freeStr_has i0
    rcases read_never (h := h1) name with ⟨b, eb⟩ | eb
    · have := read_bytes eb
      subst this
      left
      cases m
      · refine ⟨_, by simp only [setHost, e, e1, eb, Hp.bind, dup, alloc]; rfl, by exact Has.sound i1,
          by
            simp only [View.after, St.view]
            congr 1
            exact map_set_modify _ _ _ _ _ e rfl⟩
      · refine ⟨_, by simp only [setHost, e, e1, eb, Hp.bind, dup, alloc, if_pos, Option.map_some]; rfl, ?_,
          by
            simp only [View.after, St.view]
            congr 1
            exact map_set_modify _ _ _ _ _ e rfl⟩
        refine Has.sound ((fresh i1).congr ?_)
        intro a
        have c2 := c.2 { x with rdname := none } a
        have c3 := c.2 { x with rdname := some (h1.next, name.bytes) } a
        simp only [St.blocks, List.count_append, Hold.ids, Str.ids, List.count_cons, List.count_nil] at c2 c3 ⊢
        omega
    · right
      refine ⟨by simp [setHost, e, e1, eb, Hp.bind], fun g => ?_⟩
      obtain ⟨g, y, ey, n⟩ := g
      obtain rfl : y = x := by simpa [e] using ey.symm
      obtain ⟨b, eb'⟩ := still i0 i1 g n
      simp [eb] at eb'

private theorem setRaw_good {base : List Nat} {s : St} (i : Sound base s) (k : Nat) (data : Arg) (m : Bool) :
    Good base s (.setRaw k data m) (setRaw s k data m) := by
  cases e : s.recs[k]? with
  | none =>
    right
    refine ⟨by simp [setRaw, e], fun g => ?_⟩
    obtain ⟨x, ex, _⟩ := g.2
    simp [e] at ex
  | some x =>
    have c := count_at Hold.ids x s.recs k e
    have i0 : Has s.heap (Str.ids x.rdata ++ (({ s with recs := s.recs.set k { x with rdata := none } } : St).blocks ++ base)) :=
      i.has.congr (by
        intro a
        have c1 := c.1 a
        have c2 := c.2 { x with rdata := none } a
        simp only [St.blocks, List.count_append, Hold.ids, Str.ids, List.count_cons, List.count_nil] at c1 c2 ⊢
        omega)
    obtain ⟨h1, e1, i1⟩ := freeStr_has i0
    cases m with
    | false =>
      left
      refine ⟨_, by simp only [setRaw, e, e1, Hp.bind]; rfl, by exact Has.sound i1,
        by
          simp only [View.after, St.view]
          congr 1
          exact map_set_modify _ _ _ _ _ e rfl⟩
    | true =>
      rcases read_never (h := h1) data with ⟨b, eb⟩ | eb
      · have := read_bytes eb
        subst this
        left
        refine ⟨_, by simp only [setRaw, e, e1, eb, Hp.bind, dup, alloc, if_pos, Option.map_some]; rfl, ?_,
          by
            simp only [View.after, St.view]
            congr 1
            exact map_set_modify _ _ _ _ _ e rfl⟩
        refine Has.sound ((fresh i1).congr ?_)
        intro a
        have c2 := c.2 { x with rdata := none } a
        have c3 := c.2 { x with rdata := some (h1.next, data.bytes) } a
        simp only [St.blocks, List.count_append, Hold.ids, Str.ids, List.count_cons, List.count_nil] at c2 c3 ⊢
        omega
      · right
        refine ⟨by simp [setRaw, e, e1, eb, Hp.bind], fun g => ?_⟩
        obtain ⟨g, y, ey, n⟩ := g
        obtain rfl : y = x := by simpa [e] using ey.symm
        obtain ⟨b, eb'⟩ := still i0 i1 g n
        simp [eb] at eb'

private theorem cache_good {base : List Nat} {s : St} (i : Sound base s) (name : Bytes) (rdata rdname : Option Bytes)
    (m1 m2 m3 m4 : Bool) : Good base s (.cache name rdata rdname m1 m2 m3 m4) (cache s name rdata rdname m1 m2 m3 m4) := by
  left
  cases m1
  · exact ⟨s, by simp [cache, alloc], i, by simp [View.after]⟩
  have i1 := fresh i.has
  cases m2
  · obtain ⟨h', e', i'⟩ := free_has i1
    exact ⟨{ s with heap := h' }, by simp [cache, alloc, dup, e', Hp.bind], Has.sound i', by simp [View.after, St.view]⟩
  have i2 := fresh i1
  cases rdata with
  | none =>
    cases rdname with
    | none =>
      refine ⟨_, by simp only [cache, alloc, dup, if_pos, Option.map_some]; rfl, ?_,
        by simp [View.after, St.view, Hold.seen]⟩
      refine Has.sound (i2.congr ?_)
      intro a
      simp [St.blocks, Hold.ids, Str.ids, List.count_cons, List.count_append]
      omega
    | some t =>
      cases m4
      · refine ⟨_, by simp only [cache, alloc, dup, if_pos, Option.map_some]; rfl, ?_,
          by simp [View.after, St.view, Hold.seen]⟩
        refine Has.sound (i2.congr ?_)
        intro a
        simp [St.blocks, Hold.ids, Str.ids, List.count_cons, List.count_append]
        omega
      · refine ⟨_, by simp only [cache, alloc, dup, if_pos, Option.map_some]; rfl, ?_,
          by simp [View.after, St.view, Hold.seen]⟩
        refine Has.sound ((fresh i2).congr ?_)
        intro a
        simp [St.blocks, Hold.ids, Str.ids, List.count_cons, List.count_append]
        omega
  | some b =>
    cases m3
    · obtain ⟨h', e', i'⟩ := free_has i2
      obtain ⟨h'', e'', i''⟩ := free_has i'
      exact ⟨{ s with heap := h'' }, by simp [cache, alloc, dup, e', e'', Hp.bind], Has.sound i'', by simp [View.after, St.view]⟩
    have i3 := fresh i2
    cases rdname with
    | none =>
      refine ⟨_, by simp only [cache, alloc, dup, if_pos, Option.map_some]; rfl, ?_,
        by simp [View.after, St.view, Hold.seen]⟩
      refine Has.sound (i3.congr ?_)
      intro a
      simp [St.blocks, Hold.ids, Str.ids, List.count_cons, List.count_append]
      omega
    | some t =>
      cases m4
      · refine ⟨_, by simp only [cache, alloc, dup, if_pos, Option.map_some]; rfl, ?_,
          by simp [View.after, St.view, Hold.seen]⟩
        refine Has.sound (i3.congr ?_)
        intro a
        simp [St.blocks, Hold.ids, Str.ids, List.count_cons, List.count_append]
        omega
      · refine ⟨_, by simp only [cache, alloc, dup, if_pos, Option.map_some]; rfl, ?_,
          by simp [View.after, St.view, Hold.seen]⟩
        refine Has.sound ((fresh i3).congr ?_)
        intro a
        simp [St.blocks, Hold.ids, Str.ids, List.count_cons, List.count_append]
        omega

private theorem step_good {base : List Nat} {s : St} (i : Sound base s) (o : Op) : Good base s o (step s o) := by
  cases o with
  | shared host m1 m2 => exact shared_good i host m1 m2
  | setHost k name m => exact setHost_good i k name m
  | setRaw k data m => exact setRaw_good i k data m
  | freeRec k => exact freeRec_good i k
  | cache name rdata rdname m1 m2 m3 m4 => exact cache_good i name rdata rdname m1 m2 m3 m4
  | uncache k => exact uncache_good i k
  | query host m1 m2 => exact query_good i host m1 m2
  | unquery k => exact unquery_good i k
  | push m => exact push_good i m
  | pop k => exact pop_good i k

/-! ## The theorems -/

/-- To begin with: a new context, in a program that has blocks of its own. -/
theorem sound_new (h : Heap) (lt : ∀ a, a ∈ h.live → a < h.next) (nd : h.live.Nodup) : Sound h.live { heap := h } :=
  ⟨fun a => by simp [St.blocks], lt, nd⟩

/-- **C111.** Whatever is called, with whatever memory refused and whatever the callers do, nothing is ever freed that is not in use;
afterwards the blocks in use are again those of the context, each held once, and those of the rest of the program. -/
theorem C111_never_twice (base : List Nat) (os : List Op) : ∀ s, Sound base s →
    run s os ≠ .badfree ∧ ∀ s', run s os = .ok s' → Sound base s' := by
  induction os with
  | nil => exact fun s i => ⟨by simp [run], fun s' e => by simp [run] at e; exact e ▸ i⟩
  | cons o os ih =>
    intro s i
    rcases step_good i o with ⟨s1, e, i1, -⟩ | ⟨e, -⟩
    · simpa [run, e, Hp.bind] using ih s1 i1
    · simp [run, e, Hp.bind]

/-- **C111.** If callers name records that exist and pass strings that can be read, other than the very string that is replaced, then
nothing is read that is not there, however often memory is refused. -/
theorem C111_readable_partial (base : List Nat) (os : List Op) : ∀ s, Sound base s → Fine s os → ∃ s', run s os = .ok s' := by
  induction os with
  | nil => exact fun s _ _ => ⟨s, rfl⟩
  | cons o os ih =>
    intro s i f
    rcases step_good i o with ⟨s1, e, i1, -⟩ | ⟨-, n⟩
    · simpa [run, e, Hp.bind] using ih s1 i1 (f.2 s1 e)
    · exact absurd f.1 n

/-- **C111.** Every call does what it is to do, and leaves the texts of all other records, cached records and queries as they were. -/
theorem C111_texts (base : List Nat) (os : List Op) : ∀ s s', Sound base s → run s os = .ok s' →
    s'.view = os.foldl View.after s.view := by
  induction os with
  | nil => exact fun s s' _ e => by simp [run] at e; simp [e]
  | cons o os ih =>
    intro s s' i e
    rcases step_good i o with ⟨s1, e1, i1, v1⟩ | ⟨e1, -⟩
    · rw [List.foldl_cons, ← v1]
      exact ih s1 s' i1 (by simpa [run, e1, Hp.bind] using e)
    · simp [run, e1, Hp.bind] at e

/-- **C111.** All that a context holds can be read, and no two things are in the same place. -/
theorem C111_held (base : List Nat) (s : St) (i : Sound base s) :
    s.blocks.Nodup ∧ (∀ a, a ∈ s.blocks → a ∈ s.heap.live ∧ a ∉ base) := by
  have c : ∀ a, s.blocks.count a + base.count a ≤ 1 := fun a => by
    rw [← i.1 a]
    exact List.nodup_iff_count.1 i.2.2 a
  refine ⟨List.nodup_iff_count.2 fun a => by have := c a; omega, fun a ha => ?_⟩
  have p := List.count_pos_iff.2 ha
  have := c a
  refine ⟨List.count_pos_iff.1 (by rw [i.1 a]; omega), fun hb => ?_⟩
  have := List.count_pos_iff.2 hb
  omega

/-- **C111.** `mdnsd_free` gives back everything the context holds, whenever it is called, and nothing else. -/
theorem C111_all_freed (base : List Nat) (s : St) (i : Sound base s) :
    ∃ h, freeAll s = .ok h ∧ h.live.Perm base := by
  obtain ⟨h1, e1, i1⟩ := each_has (f := freeHold) (g := Hold.ids) (fun _ _ _ => freeHold_has) s.cached s.heap
    (s.recs.flatMap Hold.ids ++ (s.queries.flatMap qids ++ (s.replies.flatMap (fun a => [a]) ++ base)))
    (i.has.congr (by
      intro a
      simp only [St.blocks, List.count_append, List.flatMap_singleton']
      omega))
  obtain ⟨h2, e2, i2⟩ := each_has (f := freeHold) (g := Hold.ids) (fun _ _ _ => freeHold_has) s.recs h1 _ i1
  obtain ⟨h3, e3, i3⟩ := each_has (f := freeQuery) (g := qids) (fun _ _ _ => freeQuery_has) s.queries h2 _ i2
  obtain ⟨h4, e4, i4⟩ := each_has (f := free) (g := fun a => [a]) (fun _ _ _ => free_has) s.replies h3 _ i3
  exact ⟨h4, by simp [freeAll, e1, e2, e3, e4, Hp.bind], List.perm_iff_count.2 i4.1⟩

/-- **C111**, all of it, for a new context: any calls, with any memory refused, and then `mdnsd_free`. -/
theorem C111_life_partial (h : Heap) (lt : ∀ a, a ∈ h.live → a < h.next) (nd : h.live.Nodup) (os : List Op)
    (f : Fine { heap := h } os) :
    ∃ s h', run { heap := h } os = .ok s ∧ s.view = os.foldl View.after {} ∧ freeAll s = .ok h' ∧ h'.live.Perm h.live := by
  have i := sound_new h lt nd
  obtain ⟨s, e⟩ := C111_readable_partial _ os _ i f
  obtain ⟨h', e', p⟩ := C111_all_freed _ s ((C111_never_twice _ os _ i).2 s e)
  exact ⟨s, h', e, C111_texts _ os _ s i e, e', p⟩

/-- **C111**, what is missing: a record that is given its own host name again, as found with `mdnsd_record_data`, reads it after it was
freed, in every state. -/
theorem C111_own_host_counterexample (base : List Nat) (s : St) (i : Sound base s) (k : Nat) (x : Hold) (p : Nat × Bytes)
    (e : s.recs[k]? = some x) (ep : x.rdname = some p) (m : Bool) : step s (.setHost k (.block p) m) = .stale := by
  have c := (count_at Hold.ids x s.recs k e).1 p.1
  have m1 : p.1 ∈ s.heap.live := List.count_pos_iff.1 (by
    rw [i.1]
    simp [Hold.ids, ep, Str.ids, List.count_cons, List.count_append, St.blocks] at c ⊢
    omega)
  have m2 : p.1 ∉ s.heap.live.erase p.1 := by
    rw [i.2.2.mem_erase_iff]
    exact fun h => h.1 rfl
  simp [step, setHost, e, ep, freeStr, free, m1, Hp.bind, Arg.read, m2]

/-- **C111**, likewise with `mdnsd_set_raw`. -/
theorem C111_own_data_counterexample (base : List Nat) (s : St) (i : Sound base s) (k : Nat) (x : Hold) (p : Nat × Bytes)
    (e : s.recs[k]? = some x) (ep : x.rdata = some p) : step s (.setRaw k (.block p) true) = .stale := by
  have c := (count_at Hold.ids x s.recs k e).1 p.1
  have m1 : p.1 ∈ s.heap.live := List.count_pos_iff.1 (by
    rw [i.1]
    simp [Hold.ids, ep, Str.ids, List.count_cons, List.count_append, St.blocks] at c ⊢
    omega)
  have m2 : p.1 ∉ s.heap.live.erase p.1 := by
    rw [i.2.2.mem_erase_iff]
    exact fun h => h.1 rfl
  simp [step, setRaw, e, ep, freeStr, free, m1, Hp.bind, Arg.read, m2]

/-! ## Cases -/

/-- Two records, the second gets the host name of the first; a cached record whose host name had no memory; a query without memory. -/
private def story : List Op :=
  [.shared (.text [97]) true true, .setHost 0 (.text [98, 99]) true, .shared (.text [100]) true true,
    .setHost 0 (.block (3, [98, 99])) true, .setRaw 1 (.text [1, 2]) true, .cache [101] (some [5]) (some [102]) true true true false,
    .query (.text [103]) true false, .push true, .setHost 1 (.text [104]) false, .freeRec 0]

private def before : Heap := { next := 1, live := [0] }

example : (match run { heap := before } story with
    | .ok s => s.view.recs == [⟨some [97], some [1, 2], none⟩] && s.view.cached == [⟨some [101], some [5], none⟩] &&
        s.view.queries == [] && s.view.replies == 1 && (match freeAll s with | .ok h => h.live == [0] | _ => false)
    | _ => false) = true := by decide +kernel

/-- The premises of `C111_life_partial` are met. -/
example : (∀ a, a ∈ before.live → a < before.next) ∧ before.live.Nodup ∧ Fine { heap := before } story := by
  refine ⟨by decide, by decide, trivial, ?_⟩
  intro s1 e1
  obtain rfl := Hp.ok.inj e1
  refine ⟨⟨trivial, _, rfl, trivial⟩, ?_⟩
  intro s2 e2
  obtain rfl := Hp.ok.inj e2
  refine ⟨trivial, ?_⟩
  intro s3 e3
  obtain rfl := Hp.ok.inj e3
  refine ⟨⟨by show 3 ∈ _; decide, _, rfl, by show 3 ∉ _; decide⟩, ?_⟩
  intro s4 e4
  obtain rfl := Hp.ok.inj e4
  refine ⟨⟨trivial, _, rfl, trivial⟩, ?_⟩
  intro s5 e5
  obtain rfl := Hp.ok.inj e5
  refine ⟨trivial, ?_⟩
  intro s6 e6
  obtain rfl := Hp.ok.inj e6
  refine ⟨trivial, ?_⟩
  intro s7 e7
  obtain rfl := Hp.ok.inj e7
  refine ⟨trivial, ?_⟩
  intro s8 e8
  obtain rfl := Hp.ok.inj e8
  refine ⟨⟨trivial, _, rfl, trivial⟩, ?_⟩
  intro s9 e9
  obtain rfl := Hp.ok.inj e9
  exact ⟨by show 0 < _; decide, fun _ _ => trivial⟩

/-- The premises of the counterexamples are met: one record whose host name is passed back. -/
example : (run { heap := before } [.shared (.text [97]) true true, .setHost 0 (.text [98]) true, .setHost 0 (.block (3, [98])) true]) =
    .stale := by decide +kernel

end Mdns.Blocks
