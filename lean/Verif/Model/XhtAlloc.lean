import Verif.Model.Xht

/-!
# The string table when memory runs out, `libmdnsd/xht.c`

As `Model/Xht`, but each allocation may fail.  The memory of the nodes and of the table itself is not
accounted for.
-/

namespace Mdns.Xht

/-- Which allocations of a call get memory: the copies of key and value, `libmdnsd/xht.c:155`, `162`,
and the node, `120`. -/
structure Luck where
  key : Bool := true
  val : Bool := true
  node : Bool := true
deriving DecidableEq, Repr

/-- `xht_new`, `libmdnsd/xht.c:82-98`: NULL if the table or its array does not get memory. -/
def newF (table array : Bool) (prime : Nat) : Option Table := if table && array then some (new prime) else none

/-- `_xht_set`, `libmdnsd/xht.c:101-139`: without a node for it nothing is done. -/
def setNodeF (t : Table) (key : Obj) (val : Option Obj) (flag node : Bool) : Table :=
  match (nodeFind (t.zen (bucket key.str t.prime)) key.str).or (emptyFind (t.zen (bucket key.str t.prime))) with
  | some _ => setNode t key val flag
  | none => if node then setNode t key val flag else t

/-- `xht_set`, `libmdnsd/xht.c:141-146`. -/
def setF (t : Table) (keyAddr : Nat) (key : Bytes) (val : Option (Nat × Bytes)) (l : Luck) : Table :=
  setNodeF t ⟨.user keyAddr, key⟩ (val.map fun v => ⟨.user v.1, v.2⟩) false l.node

/-- `xht_store`, `libmdnsd/xht.c:148-171`: the copy of the key is freed if that of the value does not
get memory (163-166); what `_xht_set` returns is ignored (170). -/
def storeF (t : Table) (key : Bytes) (val : Option Bytes) (l : Luck) : Table :=
  match val with
  | none => t
  | some v =>
    if key.length = 0 then t
    else if l.key = false then t
    else if l.val = false then { t with next := t.next + 1, freed := t.freed ++ [.own t.next] }
    else
      let t' := setNodeF t ⟨.own t.next, cstr key⟩ (some ⟨.own (t.next + 1), cstr v⟩) true l.node
      { t' with next := t.next + 2 }

/-- What an operation does, `libmdnsd/xht.c:141-172`. -/
def stepF (t : Table) : Op × Luck → Table
  | (.set a k v, l) => setF t a k v l
  | (.store k v, l) => storeF t k v l

/-- Operations one after another; on NULL they do nothing, `libmdnsd/xht.c:143`, `152`. -/
def runF (t : Option Table) (ops : List (Op × Luck)) : Option Table := t.map fun t => ops.foldl stepF t

/-- `xht_get`, `libmdnsd/xht.c:174-186`. -/
def getF (t : Option Table) (key : Bytes) : Option Obj := t.bind fun t => get t key

/-- `xht_walk`, `libmdnsd/xht.c:226-240`. -/
def walkF : Option Table → List (Obj × Obj)
  | none => []
  | some t => walk t

/-- `xht_free`, `libmdnsd/xht.c:189-224`: everything passed to `free` by then, as `free` above. -/
def freeF : Option Table → List Addr
  | none => []
  | some t => free t

/-- The copies made so far; not in the code.  `libmdnsd/xht.c:155-162`. -/
def copiesF : Option Table → List Addr
  | none => []
  | some t => (List.range t.next).map .own

end Mdns.Xht
