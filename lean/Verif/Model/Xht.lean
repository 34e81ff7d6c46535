import Verif.Model.Hash

/-!
# The string table, `libmdnsd/xht.c`

A bucket is the list of its nodes: the head node lives in the `zen` array and
always exists, further nodes are linked behind it.  Allocation always succeeds
(the C code returns early on failure).
-/

namespace Mdns.Xht

/-- Where a key or value lives: in the caller's memory or in an allocation of
the table itself (numbered in allocation order).  `libmdnsd/xht.c:101-172`. -/
inductive Addr where
  | user (n : Nat)
  | own (n : Nat)
deriving DecidableEq, Repr

/-- A pointer together with the C string it points to.  `libmdnsd/xht.c:101-172`. -/
structure Obj where
  addr : Addr
  str : Bytes
deriving DecidableEq, Repr

/-- `struct xhn`, `libmdnsd/xht.c:36-44`, without the `next` link (the bucket
list represents it).  `none` is a NULL pointer. -/
structure Node where
  flag : Bool := false
  key : Option Obj := none
  val : Option Obj := none
deriving DecidableEq, Repr

/-- `struct xht`, `libmdnsd/xht.c:46-49`, plus a ledger: the next allocation
number and the addresses passed to `free` (only key and value memory is
accounted for, not the nodes themselves). -/
structure Table where
  prime : Nat
  zen : Nat → List Node
  next : Nat := 0
  freed : List Addr := []

/-- `xht_new`, `libmdnsd/xht.c:82-98`: all head nodes are zero. -/
def new (prime : Nat) : Table := { prime := prime, zen := fun _ => [{}] }

/-- `_xht_node_find`, `libmdnsd/xht.c:73-79`; gives the position of the node. -/
def nodeFind (ns : List Node) (key : Bytes) : Option Nat :=
  ns.findIdx? (fun n => match n.key with
    | some k => k.str == key
    | none => false)

/-- The search for an empty node, `libmdnsd/xht.c:112-115`. -/
def emptyFind (ns : List Node) : Option Nat := ns.findIdx? (fun n => n.val.isNone)

/-- What `free(n->u.key); free(n->val)` releases, `libmdnsd/xht.c:129-132`. -/
def freeNode (n : Node) : List Addr :=
  if n.flag then (n.key.map (·.addr)).toList ++ (n.val.map (·.addr)).toList else []

/-- `_xht_set`, `libmdnsd/xht.c:101-139`. A new node is linked behind the head. -/
def setNode (t : Table) (key : Obj) (val : Option Obj) (flag : Bool) : Table :=
  let i := bucket key.str t.prime
  let ns := t.zen i
  match (nodeFind ns key.str).or (emptyFind ns) with
  | some j =>
    let old := ns.getD j {}
    { t with
      zen := upd t.zen i (ns.set j { flag := flag, key := some key, val := val })
      freed := t.freed ++ freeNode old }
  | none =>
    { t with zen := upd t.zen i (ns.take 1 ++ { flag := flag, key := some key, val := val } :: ns.drop 1) }

/-- `xht_set`, `libmdnsd/xht.c:141-146` (the table and the key are not NULL). -/
def set (t : Table) (keyAddr : Nat) (key : Bytes) (val : Option (Nat × Bytes)) : Table :=
  setNode t ⟨.user keyAddr, key⟩ (val.map fun v => ⟨.user v.1, v.2⟩) false

/-- `xht_store`, `libmdnsd/xht.c:148-171`: `key` and `val` are the `klen` and
`vlen` bytes given.  Both copies get a NUL appended, so the stored strings end
at the first NUL inside them. -/
def store (t : Table) (key : Bytes) (val : Option Bytes) : Table :=
  match val with
  | none => t
  | some v =>
    if key.length = 0 then t
    else
      let t' := setNode t ⟨.own t.next, cstr key⟩ (some ⟨.own (t.next + 1), cstr v⟩) true
      { t' with next := t.next + 2 }

/-- `xht_get`, `libmdnsd/xht.c:174-186`. -/
def get (t : Table) (key : Bytes) : Option Obj :=
  let ns := t.zen (bucket key t.prime)
  match nodeFind ns key with
  | none => none
  | some j => (ns.getD j {}).val

/-- `xht_walk`, `libmdnsd/xht.c:226-240`: the calls made to the walker, in order. -/
def walk (t : Table) : List (Obj × Obj) :=
  (List.range t.prime).flatMap fun i =>
    (t.zen i).filterMap fun n =>
      match n.key, n.val with
      | some k, some v => some (k, v)
      | _, _ => none

/-- `xht_free`, `libmdnsd/xht.c:189-224`: the complete list of addresses that
have been passed to `free` when it returns. -/
def free (t : Table) : List Addr :=
  t.freed ++ (List.range t.prime).flatMap fun i => (t.zen i).flatMap freeNode

/-- The operations on a table.  `libmdnsd/xht.c:141-224`. -/
inductive Op where
  | set (keyAddr : Nat) (key : Bytes) (val : Option (Nat × Bytes))
  | store (key : Bytes) (val : Option Bytes)
deriving Repr

/-- What an operation does, `libmdnsd/xht.c:141-172`. -/
def step (t : Table) : Op → Table
  | .set a k v => set t a k v
  | .store k v => store t k v

/-- Operations one after another; not in the code, for `libmdnsd/xht.c:141-224`. -/
def run (t : Table) (ops : List Op) : Table := ops.foldl step t

end Mdns.Xht
