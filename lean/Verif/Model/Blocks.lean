import Verif.Model.CLib

/-!
# The memory of the library, `libmdnsd/mdnsd.c`

Which blocks the functions allocate and free: structures, names and data of records, of cached records and of queries, and pending
unicast answers.  When records are withdrawn, cached and so on is not modelled here (the other models say when): any order of these
functions is allowed.  Any allocation may fail.  Not in this model: the lists that `mdnsd_set_interface_addresses` makes and frees,
the list of `getifaddrs`, and the context itself.
-/

namespace Mdns.Blocks

/-- The heap: the address of the next block, and the blocks in use.  `libmdnsd/mdnsd.c:343-1714`. -/
structure Heap where
  next : Nat := 0
  live : List Nat := []
deriving Repr, DecidableEq

/-- A pointer to a string or to data: NULL, or the address and what is there.  `libmdnsd/mdnsd.h`, `struct mdns_answer`. -/
abbrev Str := Option (Nat × Bytes)

/-- What can happen: something is freed that is not in use, or something is used that is not.  `libmdnsd/mdnsd.c:343-1714`. -/
inductive Hp (α : Type) where
  | ok (a : α)
  | badfree
  | stale
deriving Repr, DecidableEq

/-- One after the other; not in the code, for `libmdnsd/mdnsd.c:420-459`. -/
def Hp.bind {α β : Type} : Hp α → (α → Hp β) → Hp β
  | .ok a, f => f a
  | .badfree, _ => .badfree
  | .stale, _ => .stale

/-- `calloc`, `malloc`, `strdup`: `none` is NULL.  `libmdnsd/mdnsd.c:343`. -/
def alloc (mem : Bool) (h : Heap) : Option Nat × Heap :=
  if mem then (some h.next, { next := h.next + 1, live := h.next :: h.live }) else (none, h)

/-- `strdup` or `malloc` with `memcpy`, `libmdnsd/mdnsd.c:1699-1701`, `1714`. -/
def dup (mem : Bool) (b : Bytes) (h : Heap) : Str × Heap :=
  match alloc mem h with
  | (p, h) => (p.map (·, b), h)

/-- `free`, `libmdnsd/mdnsd.c:367`. -/
def free (a : Nat) (h : Heap) : Hp Heap := if a ∈ h.live then .ok { h with live := h.live.erase a } else .badfree

/-- `free` of a string that may be NULL, `libmdnsd/mdnsd.c:426-437`, `446-457`, `1696-1697`, `1712-1713`. -/
def freeStr : Str → Heap → Hp Heap
  | none, h => .ok h
  | some p, h => free p.1 h

/-- What a caller passes: bytes in memory of their own, or a string of the library, from `mdnsd_record_data` or
in a callback.  `libmdnsd/mdnsd.c:1693`, `1707`. -/
inductive Arg where
  | text (b : Bytes)
  | block (p : Nat × Bytes)
deriving Repr, DecidableEq

/-- Reading an argument.  `libmdnsd/mdnsd.c:1601`, `1701`, `1714`. -/
def Arg.read (h : Heap) : Arg → Hp Bytes
  | .text b => .ok b
  | .block p => if p.1 ∈ h.live then .ok p.2 else .stale

/-- The blocks of `struct mdns_record`, `libmdnsd/mdnsd.c:85-94`, or `struct cached`, `79-83`: the structure, and the name and data in
its `struct mdns_answer`. -/
structure Hold where
  self : Nat
  name : Str
  rdata : Str
  rdname : Str
deriving Repr, DecidableEq

/-- All that is held: records, cached records, queries with their names, and pending unicast answers.
`libmdnsd/mdnsd.c:62-115`. -/
structure St where
  heap : Heap := {}
  recs : List Hold := []
  cached : List Hold := []
  queries : List (Nat × (Nat × Bytes)) := []
  replies : List Nat := []
deriving Repr, DecidableEq

/-- `_free_record`, `libmdnsd/mdnsd.c:441-459`, and `_free_cached`, `421-439`, which are the same. -/
def freeHold (x : Hold) (h : Heap) : Hp Heap :=
  (freeStr x.name h).bind fun h => (freeStr x.rdata h).bind fun h => (freeStr x.rdname h).bind fun h => free x.self h

/-- `free(q->name); free(q);`, `libmdnsd/mdnsd.c:417-418`, `1083-1084`. -/
def freeQuery (q : Nat × (Nat × Bytes)) (h : Heap) : Hp Heap := (free q.2.1 h).bind fun h => free q.1 h

/-- `mdnsd_shared`, `libmdnsd/mdnsd.c:1592-1612`; `mdnsd_unique`, `1614-1635`, allocates nothing else.  The
name is read first, for the hash (1594). -/
def shared (s : St) (host : Arg) (m1 m2 : Bool) : Hp St :=
  (host.read s.heap).bind fun b =>
    match alloc m1 s.heap with
    | (none, h) => .ok { s with heap := h }
    | (some r, h) =>
      match dup m2 b h with
      | (none, h) => (free r h).bind fun h => .ok { s with heap := h }
      | (some n, h) => .ok { s with heap := h, recs := ⟨r, some n, none, none⟩ :: s.recs }

/-- `mdnsd_set_host`, `libmdnsd/mdnsd.c:1707-1716`, of the record at position `k`: the old name is freed before the new one is
copied. -/
def setHost (s : St) (k : Nat) (name : Arg) (mem : Bool) : Hp St :=
  match s.recs[k]? with
  | none => .stale
  | some x =>
    (freeStr x.rdname s.heap).bind fun h =>
      (name.read h).bind fun b =>
        match dup mem b h with
        | (p, h) => .ok { s with heap := h, recs := s.recs.set k { x with rdname := p } }

/-- `mdnsd_set_raw`, `libmdnsd/mdnsd.c:1693-1705`; the data is read only if there is memory. -/
def setRaw (s : St) (k : Nat) (data : Arg) (mem : Bool) : Hp St :=
  match s.recs[k]? with
  | none => .stale
  | some x =>
    (freeStr x.rdata s.heap).bind fun h =>
      if mem then
        (data.read h).bind fun b =>
          match dup mem b h with
          | (p, h) => .ok { s with heap := h, recs := s.recs.set k { x with rdata := p } }
      else .ok { s with heap := h, recs := s.recs.set k { x with rdata := none } }

/-- `_r_done`, `libmdnsd/mdnsd.c:461-484`, of the record at position `k`. -/
def freeRec (s : St) (k : Nat) : Hp St :=
  match s.recs[k]? with
  | none => .stale
  | some x => (freeHold x s.heap).bind fun h => .ok { s with heap := h, recs := s.recs.eraseIdx k }

/-- The new entry of `_cache`, `libmdnsd/mdnsd.c:588-651`: structure, name, data if there is any, and for some types the
name in it, for which `strdup` is not checked (631, 642).  A resource
with a length and no data (601-606) does not come out of the parser and is left out. -/
def cache (s : St) (name : Bytes) (rdata rdname : Option Bytes) (m1 m2 m3 m4 : Bool) : Hp St :=
  match alloc m1 s.heap with
  | (none, h) => .ok { s with heap := h }
  | (some c, h) =>
    match dup m2 name h with
    | (none, h) => (free c h).bind fun h => .ok { s with heap := h }
    | (some n, h) =>
      match rdata with
      | none =>
        match rdname with
        | none => .ok { s with heap := h, cached := ⟨c, some n, none, none⟩ :: s.cached }
        | some b =>
          match dup m4 b h with
          | (q, h) => .ok { s with heap := h, cached := ⟨c, some n, none, q⟩ :: s.cached }
      | some b =>
        match dup m3 b h with
        | (none, h) => (free n.1 h).bind fun h => (free c h).bind fun h => .ok { s with heap := h }
        | (some p, h) =>
          match rdname with
          | none => .ok { s with heap := h, cached := ⟨c, some n, some p, none⟩ :: s.cached }
          | some b =>
            match dup m4 b h with
            | (q, h) => .ok { s with heap := h, cached := ⟨c, some n, some p, q⟩ :: s.cached }

/-- A cached record is dropped, `libmdnsd/mdnsd.c:517`. -/
def uncache (s : St) (k : Nat) : Hp St :=
  match s.cached[k]? with
  | none => .stale
  | some x => (freeHold x s.heap).bind fun h => .ok { s with heap := h, cached := s.cached.eraseIdx k }

/-- A new query of `mdnsd_query`, `libmdnsd/mdnsd.c:1537-1555`. -/
def query (s : St) (host : Arg) (m1 m2 : Bool) : Hp St :=
  (host.read s.heap).bind fun b =>
    match alloc m1 s.heap with
    | (none, h) => .ok { s with heap := h }
    | (some q, h) =>
      match dup m2 b h with
      | (none, h) => (free q h).bind fun h => .ok { s with heap := h }
      | (some n, h) => .ok { s with heap := h, queries := (q, n) :: s.queries }

/-- `_q_done`, `libmdnsd/mdnsd.c:390-419`, of the query at position `k`. -/
def unquery (s : St) (k : Nat) : Hp St :=
  match s.queries[k]? with
  | none => .stale
  | some q => (freeQuery q s.heap).bind fun h => .ok { s with heap := h, queries := s.queries.eraseIdx k }

/-- `_u_push`, `libmdnsd/mdnsd.c:339-352`. -/
def push (s : St) (mem : Bool) : Hp St :=
  match alloc mem s.heap with
  | (none, h) => .ok { s with heap := h }
  | (some u, h) => .ok { s with heap := h, replies := u :: s.replies }

/-- A pending unicast answer is sent or dropped, `libmdnsd/mdnsd.c:355-374`, `1278`. -/
def pop (s : St) (k : Nat) : Hp St :=
  match s.replies[k]? with
  | none => .stale
  | some u => (free u s.heap).bind fun h => .ok { s with heap := h, replies := s.replies.eraseIdx k }

/-- The functions that allocate or free.  `libmdnsd/mdnsd.c:339-1716`. -/
inductive Op where
  | shared (host : Arg) (m1 m2 : Bool)
  | setHost (k : Nat) (name : Arg) (mem : Bool)
  | setRaw (k : Nat) (data : Arg) (mem : Bool)
  | freeRec (k : Nat)
  | cache (name : Bytes) (rdata rdname : Option Bytes) (m1 m2 m3 m4 : Bool)
  | uncache (k : Nat)
  | query (host : Arg) (m1 m2 : Bool)
  | unquery (k : Nat)
  | push (mem : Bool)
  | pop (k : Nat)
deriving Repr, DecidableEq

/-- One of them, `libmdnsd/mdnsd.c:339-1716`. -/
def step (s : St) : Op → Hp St
  | .shared host m1 m2 => shared s host m1 m2
  | .setHost k name mem => setHost s k name mem
  | .setRaw k data mem => setRaw s k data mem
  | .freeRec k => freeRec s k
  | .cache name rdata rdname m1 m2 m3 m4 => cache s name rdata rdname m1 m2 m3 m4
  | .uncache k => uncache s k
  | .query host m1 m2 => query s host m1 m2
  | .unquery k => unquery s k
  | .push mem => push s mem
  | .pop k => pop s k

/-- One after the other; `libmdnsd/mdnsd.c:339-1716`. -/
def run (s : St) : List Op → Hp St
  | [] => .ok s
  | o :: os => (step s o).bind fun s => run s os

/-- A loop that frees everything in a list, `libmdnsd/mdnsd.c:1054-1096`. -/
def each {α : Type} (f : α → Heap → Hp Heap) : List α → Heap → Hp Heap
  | [], h => .ok h
  | x :: xs, h => (f x h).bind (each f xs)

/-- `mdnsd_free`, `libmdnsd/mdnsd.c:1047-1102`: the heap afterwards.  Records and queries are freed in turns there, one table
entry after the other. -/
def freeAll (s : St) : Hp Heap :=
  (each freeHold s.cached s.heap).bind fun h => (each freeHold s.recs h).bind fun h =>
    (each freeQuery s.queries h).bind fun h => each free s.replies h

end Mdns.Blocks
