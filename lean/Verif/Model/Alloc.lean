import Verif.Model.Daemon

/-!
# Running out of memory, `libmdnsd/mdnsd.c`

The other models assume that `calloc`, `malloc`, `strdup` and `realloc` succeed.  Here they may fail in `mdnsd_query`, `mdnsd_shared`,
`mdnsd_unique`, in `_cache` and so in `mdnsd_in`, in `mdnsd_set_host`, `mdnsd_set_raw` and in the first part of
`mdnsd_set_interface_addresses`.  Simplifications: allocations of callbacks succeed, and so does that of `_u_push` (for which see `Model/UniAlloc`).
-/

namespace Mdns

open M

/-- What becomes of the allocations for a new cache entry: all succeed; one of those checked fails, `libmdnsd/mdnsd.c:589-596`,
`:608-613`; or only the `strdup` of the name in the data, which is not checked, `:631`, `:642`. -/
inductive Store where
  | done
  | refused
  | nameless
deriving DecidableEq, Repr

namespace Core

/-- The end of `_cache` with the entry made, `libmdnsd/mdnsd.c:650-655`. -/
def addEntry (env : Env) (c : Core) (r : Resource) (a : Answer) : Res Core :=
  let i := bucket r.name lprime
  match c.qFind r.name r.type with
  | .ok q =>
    let e : Cached := { rr := a, q := q }
    let c := { c with cache := upd c.cache i (e :: c.cache i) }
    match q with
    | none => .ok c
    | some q =>
      match c.callAnswer env q e.rr with
      | .ok (stop, c) =>
        if stop then
          match (c.cache i).head? with
          | some { q := some q', .. } => c.qDone q'
          | _ => .ub
        else .ok c
      | .ub => .ub
      | .hang => .hang
  | .ub => .ub
  | .hang => .hang

/-- `_cache` behind the deletions, `libmdnsd/mdnsd.c:573-655`. -/
def insertA (env : Env) (c : Core) (r : Resource) (src : Addr) (s : Store) : Res Core :=
  let i := bucket r.name lprime
  let ttl := c.now.sec + r.ttl / 2 + 8
  match (c.cache i).findIdx? (fun e => e.rr.is r.name r.type && aMatch r e.rr) with
  | some k => .ok (c.modEntry i k fun e => { e with rr := { e.rr with ttl := ttl } })
  | none =>
    match s with
    | .done => c.addEntry env r (newEntry r src ttl)
    | .refused => .ok c
    | .nameless => c.addEntry env r { newEntry r src ttl with rdname := none }

/-- `_cache`, `libmdnsd/mdnsd.c:543-656`; that it returns 1 makes no difference, `:1238-1241`. -/
def cacheInA (env : Env) (c : Core) (r : Resource) (src : Addr) (s : Store) : Res Core :=
  match c.flush env r with
  | .ok c =>
    if r.ttl = 0 then
      deleteF env r (bucket r.name lprime) ((c.chain r.name).length + 1) c
    else c.insertA env r src s
  | .ub => .ub
  | .hang => .hang

end Core

variable {Q : Type} [QOps Q]

/-- One answer, `libmdnsd/mdnsd.c:1212-1242`. -/
def inAnswerA (env : Env) (src : Addr) (a : Resource) (s : Store) (did : Bool) : M Q Bool := do
  let r ← rFirst a.name a.type
  let bad ← match r with
    | none => pure none
    | some r => do
      let x ← getRec r
      pure (if x.unique ≠ 0 ∧ x.modified ∧ aMatch a x.rr then some r else none)
  match bad with
  | none => do
    rest
    pure did
  | some r => do
    if !did then modC (refreshLocals env true)
    if ← isLocal env src then pure true
    else do
      conflict r
      rest
      pure true
where
  /-- `libmdnsd/mdnsd.c:1235-1241` -/
  rest : M Q Unit := do
    modC fun c => if c.recvCb then { c with log := c.log ++ [Event.received a] } else c
    liftC fun c => (c.cacheInA env a src s).bind fun c => .ok ((), c)

/-- The loop over the answers; `mem k` is about answer `k`.  `libmdnsd/mdnsd.c:1211-1244`. -/
def inAnswersA (env : Env) (src : Addr) (mem : Nat → Store) : Nat → List Resource → Bool → M Q Unit
  | _, [], _ => pure ()
  | k, a :: rest, did => do
    let did ← inAnswerA env src a (mem k) did
    inAnswersA env src mem (k + 1) rest did

/-- `mdnsd_in`, `libmdnsd/mdnsd.c:1111-1245`. -/
def inMsgA (env : Env) (now : TV) (m : Msg) (src : Addr) (mem : Nat → Store) : M Q Nat := do
  let c ← core
  if c.shutdown then pure 1
  else do
    modC fun c => { c with now := now }
    if ← isLocal env src then pure 0
    else if !m.header.qr then do
      inQuestions env m src m.qd false
      pure 0
    else do
      inAnswersA env src mem 0 m.an false
      pure 0

/-- Calls in which allocations fail.  `libmdnsd/mdnsd.c:543-656`, `1535-1636`. -/
inductive Fail where
  /-- `mdnsd_query` cannot store a new query, `libmdnsd/mdnsd.c:1545-1552`.  (It needs no memory if there is one, `:1541`.) -/
  | query (host : Bytes) (type : Nat) (cb : Nat)
  /-- `mdnsd_shared` and `mdnsd_unique` give NULL, `libmdnsd/mdnsd.c:1597-1605`, `:1620-1622`. -/
  | shared (host : Bytes) (type ttl : Nat)
  | unique (host : Bytes) (type ttl : Nat)
  /-- `mdnsd_in` cannot store some of the answers. -/
  | recv (now : TV) (m : Msg) (src : Addr) (mem : Nat → Store)
  /-- `mdnsd_set_host` cannot copy the name; the result of `strdup` is not checked, `libmdnsd/mdnsd.c:1707-1716`. -/
  | setHost (r : Nat)

/-- What such a call does.  `libmdnsd/mdnsd.c:543-656`, `1535-1636`. -/
def stepFail (env : Env) : Fail → M Q Unit
  | .query host type cb => liftC fun c =>
      match c.qFind host type with
      | .ok none => .ok ((), c)
      | .ok (some _) => (c.query host type (some cb)).bind fun c => .ok ((), c)
      | .ub => .ub
      | .hang => .hang
  | .shared _ _ _ => pure ()
  | .unique _ _ _ => pure ()
  | .recv now m src mem => do let _ ← inMsgA env now m src mem; pure ()
  | .setHost r => do
    modRec r fun x => { x with rr := { x.rr with rdname := none } }
    rPublish r

/-! ### Raw data -/

/-- `rdata` and `rdlen` of a record, which elsewhere is one value (`Answer.rdata`).  `libmdnsd/mdnsd.h:58-70`. -/
structure Raw where
  rdata : Option Bytes := none
  rdlen : Nat := 0
deriving DecidableEq, Repr

/-- `mdnsd_set_raw`, `libmdnsd/mdnsd.c:1694-1705`: if `malloc` fails the length stays. -/
def Raw.set (x : Raw) (data : Bytes) (mem : Bool) : Raw :=
  if mem then ⟨some data, data.length⟩ else { x with rdata := none }

/-- The last case of `_a_match`, `libmdnsd/mdnsd.c:225-227`; `ub` if `memcmp` gets a NULL pointer. -/
def Raw.matches (x : Raw) (received : Bytes) : Res Bool :=
  if received.length ≠ x.rdlen then .ok false
  else if received = [] then .ok true
  else match x.rdata with
    | none => .ub
    | some d => .ok (received == d)

/-! ### The addresses of an interface -/

/-- The array `v4` or `v6` of `mdnsd_set_interface_addresses`, `libmdnsd/mdnsd.c:1838-1839`: `cells` is `none` for NULL; a cell is `none` if nothing
was written to it. -/
structure Vec (α : Type) where
  cells : Option (List (Option α)) := none
  count : Nat := 0

/-- One address, `libmdnsd/mdnsd.c:1851-1856`, `:1859-1864`.  `realloc` keeps the cells there are and adds new ones; with NULL all of them are new.  If it
fails, the old array is lost. -/
def Vec.add {α : Type} (v : Vec α) (a : α) (mem : Bool) : Vec α :=
  if !mem then { v with cells := none }
  else
    let old := v.cells.getD []
    let new := (old ++ List.replicate (v.count + 1 - old.length) none).set v.count (some a)
    { cells := some new, count := v.count + 1 }

/-- All of them; `mem k` is about `realloc` number `k`.  `libmdnsd/mdnsd.c:1834-1917`. -/
def Vec.collect {α : Type} (mem : Nat → Bool) : Nat → List α → Vec α → Vec α
  | _, [], v => v
  | k, a :: rest, v => collect mem (k + 1) rest (v.add a (mem k))

/-- What `_update_addresses_for_host` reads, `libmdnsd/mdnsd.c:1757-1815`: elements 0 .. `count`-1; NULL or an unwritten cell is undefined. -/
def Vec.read {α : Type} (v : Vec α) : Res (List α) :=
  match v.cells with
  | none => if v.count = 0 then .ok [] else .ub
  | some l => match (l.take v.count).mapM id with
    | some x => .ok x
    | none => .ub

end Mdns
