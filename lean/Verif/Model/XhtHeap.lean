import Verif.Model.XhtAlloc

/-!
# The nodes of the string table in memory, `libmdnsd/xht.c`

As `Model/XhtAlloc`, but the nodes behind the first one of a bucket are allocated cells that point to each other.
Reading or writing a cell that was freed or never allocated gives `bad`; `hang` stands for a loop that does not end.
-/

namespace Mdns.Xht

/-- `struct xhn`, `libmdnsd/xht.c:36-44`, with its link. -/
structure HNode where
  next : Option Nat := none
  node : Node := {}
deriving DecidableEq, Repr

/-- `struct xht`, `libmdnsd/xht.c:46-49`: the array `zen`, and the cells allocated for further nodes, `n` by now.  `next`
and `freed` are as in `Table`. -/
structure HTable where
  prime : Nat
  heads : Nat → HNode := fun _ => {}
  cells : Nat → Option HNode := fun _ => none
  n : Nat := 0
  next : Nat := 0
  freed : List Addr := []

/-- How a function ends; not in the code, for `libmdnsd/xht.c:73-240`. -/
inductive R (α : Type) where
  | ok (a : α)
  | bad
  | hang
deriving DecidableEq, Repr

/-- One after another; not in the code, for `libmdnsd/xht.c:73-240`. -/
def R.bind {α β : Type} (r : R α) (f : α → R β) : R β :=
  match r with
  | .ok a => f a
  | .bad => .bad
  | .hang => .hang

/-- A node of the array, or a cell.  `libmdnsd/xht.c:36-49`. -/
inductive Ptr where
  | head (i : Nat)
  | cell (c : Nat)
deriving DecidableEq, Repr

/-- The loops `for (; n != 0; n = n->next)` of `libmdnsd/xht.c:75-78`, `112-115`, behind the first node, until a node
has the property. -/
def seek (q : Node → Bool) (cells : Nat → Option HNode) : Nat → Option Nat → R (Option Nat)
  | _, none => .ok none
  | 0, some _ => .hang
  | f + 1, some c =>
    match cells c with
    | none => .bad
    | some h => if q h.node then .ok (some c) else seek q cells f h.next

/-- The same from the first node on, `libmdnsd/xht.c:75-78`, `112-115`. -/
def search (q : Node → Bool) (t : HTable) (i : Nat) : R (Option Ptr) :=
  if q (t.heads i).node then .ok (some (.head i))
  else (seek q t.cells t.n (t.heads i).next).bind fun o => .ok (o.map .cell)

/-- The test of `_xht_node_find`, `libmdnsd/xht.c:76`. -/
def hasKey (key : Bytes) (n : Node) : Bool :=
  match n.key with
  | some k => k.str == key
  | none => false

/-- `*n` is read, `libmdnsd/xht.c:129-131`, `185`. -/
def load (t : HTable) : Ptr → R HNode
  | .head i => .ok (t.heads i)
  | .cell c => match t.cells c with
    | none => .bad
    | some h => .ok h

/-- `*n` is written, `libmdnsd/xht.c:134-136`. -/
def save (t : HTable) (p : Ptr) (h : HNode) : HTable :=
  match p with
  | .head i => { t with heads := upd t.heads i h }
  | .cell c => { t with cells := upd t.cells c (some h) }

/-- The end of `_xht_set`, `libmdnsd/xht.c:128-138`. -/
def fill (t : HTable) (p : Ptr) (x : Node) : R HTable :=
  (load t p).bind fun h => .ok { save t p { h with node := x } with freed := t.freed ++ freeNode h.node }

/-- `_xht_set`, `libmdnsd/xht.c:101-139`; `node` tells whether `calloc` succeeds. -/
def setNodeH (t : HTable) (key : Obj) (val : Option Obj) (flag node : Bool) : R HTable :=
  let i := bucket key.str t.prime
  let x : Node := { flag := flag, key := some key, val := val }
  (search (hasKey key.str) t i).bind fun
    | some p => fill t p x
    | none =>
      (search (fun n => n.val.isNone) t i).bind fun
        | some p => fill t p x
        | none =>
          if node then
            let h := t.heads i
            fill { t with
              cells := upd t.cells t.n (some { next := h.next })
              heads := upd t.heads i { h with next := some t.n }
              n := t.n + 1 } (.cell t.n) x
          else .ok t

/-- `xht_set` and `xht_store`, `libmdnsd/xht.c:141-171`, as `setF` and `storeF`. -/
def stepH (t : HTable) : Op × Luck → R HTable
  | (.set a k v, l) => setNodeH t ⟨.user a, k⟩ (v.map fun v => ⟨.user v.1, v.2⟩) false l.node
  | (.store _ none, _) => .ok t
  | (.store key (some v), l) =>
    if key.length = 0 then .ok t
    else if l.key = false then .ok t
    else if l.val = false then .ok { t with next := t.next + 1, freed := t.freed ++ [.own t.next] }
    else
      (setNodeH t ⟨.own t.next, cstr key⟩ (some ⟨.own (t.next + 1), cstr v⟩) true l.node).bind fun t' =>
        .ok { t' with next := t.next + 2 }

/-- Calls one after another, `libmdnsd/xht.c:141-171`. -/
def runH : List (Op × Luck) → HTable → R HTable
  | [], t => .ok t
  | o :: ops, t => (stepH t o).bind (runH ops)

/-- `xht_get`, `libmdnsd/xht.c:174-186`. -/
def getH (t : HTable) (key : Bytes) : R (Option Obj) :=
  (search (hasKey key) t (bucket key t.prime)).bind fun
    | none => .ok none
    | some p => (load t p).bind fun h => .ok h.node.val

/-- The inner loop of `xht_walk` behind the first node, `libmdnsd/xht.c:235-238`: the nodes it comes to. -/
def chainH (cells : Nat → Option HNode) : Nat → Option Nat → R (List Node)
  | _, none => .ok []
  | 0, some _ => .hang
  | f + 1, some c =>
    match cells c with
    | none => .bad
    | some h => (chainH cells f h.next).bind fun l => .ok (h.node :: l)

/-- `xht_walk`, `libmdnsd/xht.c:226-240`: the calls made to the walker, which leaves the table alone; for the buckets in
the list. -/
def walkH (t : HTable) : List Nat → R (List (Obj × Obj))
  | [] => .ok []
  | i :: is =>
    (chainH t.cells t.n (t.heads i).next).bind fun l =>
      (walkH t is).bind fun r =>
        .ok ((((t.heads i).node :: l).filterMap fun n =>
          match n.key, n.val with
          | some k, some v => some (k, v)
          | _, _ => none) ++ r)

/-- What `xht_free` has released: keys and values, nodes, in this order each; and the cells left.  `libmdnsd/xht.c:189-224`. -/
structure Freed where
  addrs : List Addr := []
  nodes : List Nat := []
  cells : Nat → Option HNode

/-- The inner loop of `xht_free`, `libmdnsd/xht.c:206-218`: `n->next` is read before the node is freed. -/
def freeChain : Nat → Option Nat → Freed → R Freed
  | _, none, s => .ok s
  | 0, some _, _ => .hang
  | f + 1, some c, s =>
    match s.cells c with
    | none => .bad
    | some h => freeChain f h.next
        { addrs := s.addrs ++ freeNode h.node, nodes := s.nodes ++ [c], cells := upd s.cells c none }

/-- The outer loop, `libmdnsd/xht.c:196-219`, for the buckets in the list. -/
def freeBuckets (t : HTable) : List Nat → Freed → R Freed
  | [], s => .ok s
  | i :: is, s =>
    (freeChain t.n (t.heads i).next { s with addrs := s.addrs ++ freeNode (t.heads i).node }).bind (freeBuckets t is)

/-- `xht_free`, `libmdnsd/xht.c:189-224`; the array and the table itself are then freed (221, 223). -/
def freeH (t : HTable) : R Freed :=
  freeBuckets t (List.range t.prime) { addrs := t.freed, cells := t.cells }

end Mdns.Xht
