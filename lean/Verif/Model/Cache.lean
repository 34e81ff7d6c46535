import Verif.Model.DaemonTypes

/-!
# Cache and queries of `libmdnsd/mdnsd.c`

These functions do not touch the record queues.
-/

namespace Mdns

/-- Does an entry or record match a name and type, `libmdnsd/mdnsd.c:157`, `:172`? -/
def Answer.is (a : Answer) (host : Bytes) (type : Nat) : Bool :=
  (type == a.type || type == 255) && a.name == host

/-- `_a_match`, `libmdnsd/mdnsd.c:198-231`.  (`a->name` is never NULL.) -/
def aMatch (r : Resource) (a : Answer) : Bool :=
  r.name == a.name && r.type == a.type &&
    (if r.type = 33 then
      match r.known with
      | .srv p w o n => a.rdname == some n && a.port == o && a.weight == w && a.priority == p
      | _ => false
    else if isNameType r.type then
      match r.known with
      | .name n => a.rdname == some n
      | _ => false
    else if r.type = 1 then
      match r.known with
      | .a ip => toVec 4 ip == a.ip
      | _ => false
    else if r.type = 28 then
      match r.known with
      | .aaaa ip => toVec 16 ip == a.ip6
      | _ => false
    else r.rdata == a.rdata.getD [])

/-- `x - 7` on `unsigned long`, `libmdnsd/mdnsd.c:383-384`. -/
def sub7 (x : Nat) : Nat := if 7 ≤ x then x - 7 else 2 ^ 64 + x - 7

namespace Core

/-- The cache chain of a name.  `d->cache[_namehash(name) % LPRIME]`, `libmdnsd/mdnsd.c:152`. -/
def chain (c : Core) (host : Bytes) : List Cached := c.cache (bucket host lprime)

/-- `_q_next` with `q` NULL, `libmdnsd/mdnsd.c:134-147`; freed queries would be
dereferenced. -/
def qFind (c : Core) (host : Bytes) (type : Nat) : Res (Option Nat) :=
  go (c.queries (bucket host sprime))
where
  go : List Nat → Res (Option Nat)
    | [] => .ok none
    | q :: rest =>
      match c.qs q with
      | none => .ub
      | some x => if x.type = type ∧ x.name = host then .ok (some q) else go rest

/-- `_q_reset`, `libmdnsd/mdnsd.c:375-389`. -/
def qReset (c : Core) (q : Nat) : Res Core :=
  match c.qs q with
  | none => .ub
  | some x =>
    let nt := ((c.chain x.name).filter fun e => e.rr.is x.name x.type).foldl
      (fun nt e => if nt = 0 ∨ sub7 e.rr.ttl < nt then sub7 e.rr.ttl else nt) 0
    .ok { c with
      qs := upd c.qs q (some { x with nexttry := nt, tries := 0 })
      checkqlist := if nt ≠ 0 ∧ nt < c.checkqlist then nt else c.checkqlist }

/-- Set the query of all cached entries matching a name and type,
`libmdnsd/mdnsd.c:398-399`, `:1559-1560`. -/
def assoc (c : Core) (host : Bytes) (type : Nat) (q : Option Nat) : Core :=
  { c with
    cache := upd c.cache (bucket host lprime)
      ((c.chain host).map fun e => if e.rr.is host type then { e with q := q } else e) }

/-- `_q_done`, `libmdnsd/mdnsd.c:392-419`.  The searches in the two lists have no
check for the end. -/
def qDone (c : Core) (q : Nat) : Res Core :=
  match c.qs q with
  | none => .ub
  | some x =>
    let i := bucket x.name sprime
    if q ∈ c.qlist ∧ q ∈ c.queries i then
      let c := c.assoc x.name x.type none
      .ok { c with
        qlist := c.qlist.erase q
        queries := upd c.queries i ((c.queries i).erase q)
        qs := upd c.qs q none
        log := c.log ++ [.unregistered x.name x.type] }
    else .ub

/-- `mdnsd_query`, `libmdnsd/mdnsd.c:1535-1575`; `answer` is `none` for NULL. -/
def query (c : Core) (host : Bytes) (type : Nat) (answer : Option Nat) : Res Core :=
  match c.qFind host type with
  | .ok (some q) =>
    match answer with
    | none => c.qDone q
    | some cb =>
      match c.qs q with
      | none => .ub
      | some x => .ok { c with
          qs := upd c.qs q (some { x with cb := cb })
          log := c.log ++ [.registered host type cb] }
  | .ok none =>
    match answer with
    | none => .ok c
    | some cb =>
      let q := c.nextq
      let i := bucket host sprime
      let c := { c with
        nextq := q + 1
        qs := upd c.qs q (some { name := host, type := type, cb := cb })
        queries := upd c.queries i (q :: c.queries i)
        qlist := q :: c.qlist }
      let c := c.assoc host type (some q)
      match c.qReset q with
      | .ok c =>
        match c.qs q with
        | none => .ub
        | some x => .ok { c with
            qs := upd c.qs q (some { x with nexttry := c.now.sec })
            checkqlist := c.now.sec
            log := c.log ++ [.registered host type cb] }
      | .ub => .ub
      | .hang => .hang
  | .ub => .ub
  | .hang => .hang

/-- The queries registered by a callback.  `mdnsd_query` called in a callback, `libmdnsd/mdnsd.c:491`, `1535-1575`. -/
def register (c : Core) : List (Bytes × Nat × Nat) → Res Core
  | [] => .ok c
  | (host, type, cb) :: rest =>
    match c.query host type (some cb) with
    | .ok c => c.register rest
    | .ub => .ub
    | .hang => .hang

/-- The call of the answer callback in `_q_answer`, `libmdnsd/mdnsd.c:489-491`: the
new state and whether the callback returned -1. -/
def callAnswer (env : Env) (c : Core) (q : Nat) (rr : Answer) : Res (Bool × Core) :=
  match c.qs q with
  | none => .ub
  | some x =>
    let rr := if rr.ttl ≤ c.now.sec then { rr with ttl := 0 } else rr
    let c := { c with log := c.log ++ [Event.answer q x.cb rr] }
    let act := env.answer c.log
    match c.register act.reg with
    | .ok c => .ok (act.stop, c)
    | .ub => .ub
    | .hang => .hang

/-- `_q_answer`, `libmdnsd/mdnsd.c:487-493`, for an entry no longer in the cache. -/
def qAnswer (env : Env) (c : Core) (e : Cached) : Res Core :=
  match e.q with
  | none => .ok c
  | some q =>
    match c.callAnswer env q e.rr with
    | .ok (stop, c) => if stop then c.qDone q else .ok c
    | .ub => .ub
    | .hang => .hang

/-- The loop of `_c_expire`, `libmdnsd/mdnsd.c:502-528`, at position `k` of chain `i`.
Callbacks change no entry's position. -/
def cExpireF (env : Env) (i : Nat) : Nat → Nat → Core → Res Core
  | 0, _, _ => .hang
  | fuel + 1, k, c =>
    match (c.cache i)[k]? with
    | none => .ok c
    | some e =>
      if c.now.sec ≥ e.rr.ttl then
        match ({ c with cache := upd c.cache i ((c.cache i).eraseIdx k) } : Core).qAnswer env e with
        | .ok c => cExpireF env i fuel k c
        | .ub => .ub
        | .hang => .hang
      else cExpireF env i fuel (k + 1) c

/-- `_c_expire`, `libmdnsd/mdnsd.c:502-528`. -/
def cExpire (env : Env) (c : Core) (i : Nat) : Res Core :=
  cExpireF env i ((c.cache i).length + 1) 0 c

/-- `_gc`, `libmdnsd/mdnsd.c:531-541`. -/
def gc (env : Env) (c : Core) : Res Core :=
  match go lprime c with
  | .ok c => .ok { c with expireall := c.now.sec + gcInterval }
  | .ub => .ub
  | .hang => .hang
where
  /-- chains `lprime - n ..` -/
  go : Nat → Core → Res Core
    | 0, c => .ok c
    | n + 1, c =>
      match c.cExpire env (lprime - (n + 1)) with
      | .ok c => go n c
      | .ub => .ub
      | .hang => .hang

/-- Change the entry at position `k` of chain `i`.  `libmdnsd/mdnsd.c:560`, `584`. -/
def modEntry (c : Core) (i k : Nat) (f : Cached → Cached) : Core :=
  { c with cache := upd c.cache i ((c.cache i).modify k f) }

/-- The deletion loop of `_cache`, `libmdnsd/mdnsd.c:558-564`. -/
def deleteF (env : Env) (r : Resource) (i : Nat) : Nat → Core → Res Core
  | 0, _ => .hang
  | fuel + 1, c =>
    match (c.cache i).findIdx? (fun e => e.rr.is r.name r.type && aMatch r e.rr) with
    | none => .ok c
    | some k =>
      match (c.modEntry i k fun e => { e with rr := { e.rr with ttl := 0 } }).cExpire env i with
      | .ok c => deleteF env r i fuel c
      | .ub => .ub
      | .hang => .hang

/-- The new cache entry, `libmdnsd/mdnsd.c:593-647`. -/
def newEntry (r : Resource) (src : Addr) (ttl : Nat) : Answer :=
  let a : Answer :=
    { name := r.name, type := r.type, ttl := ttl, rdata := if r.rdata = [] then none else some r.rdata }
  match r.known with
  | .a ip => { a with ip := toVec 4 ip }
  | .aaaa ip => { a with ip6 := toVec 16 ip }
  | .name n =>
    match src.ip with
    | .v4 ip => { a with rdname := some n, ip := ip }
    | .v6 ip => { a with rdname := some n, ip6 := ip }
  | .srv p w o n => { a with rdname := some n, port := o, weight := w, priority := p }
  | .none => a

/-- The cache flush of `_cache`, `libmdnsd/mdnsd.c:549-554`. -/
def flush (env : Env) (c : Core) (r : Resource) : Res Core :=
  if r.cls = 32768 + c.cls then
    ({ c with
        cache := upd c.cache (bucket r.name lprime)
          ((c.chain r.name).map fun e =>
            if e.rr.is r.name r.type then { e with rr := { e.rr with ttl := 0 } } else e) } :
        Core).cExpire env (bucket r.name lprime)
  else .ok c

/-- `_cache` behind the deletions, `libmdnsd/mdnsd.c:573-655`. -/
def insert (env : Env) (c : Core) (r : Resource) (src : Addr) : Res Core :=
  let i := bucket r.name lprime
  let ttl := c.now.sec + r.ttl / 2 + 8
  match (c.cache i).findIdx? (fun e => e.rr.is r.name r.type && aMatch r e.rr) with
  | some k => .ok (c.modEntry i k fun e => { e with rr := { e.rr with ttl := ttl } })
  | none =>
    match c.qFind r.name r.type with
    | .ok q =>
      let e : Cached := { rr := newEntry r src ttl, q := q }
      let c := { c with cache := upd c.cache i (e :: c.cache i) }
      match q with
      | none => .ok c
      | some q =>
        match c.callAnswer env q e.rr with
        | .ok (stop, c) =>
          if stop then
            -- `c->q` is read again after the callback
            match (c.cache i).head? with
            | some { q := some q', .. } => c.qDone q'
            | _ => .ub
          else .ok c
        | .ub => .ub
        | .hang => .hang
    | .ub => .ub
    | .hang => .hang

/-- `_cache`, `libmdnsd/mdnsd.c:543-656`.  It always returns 0, because allocation
succeeds and the parser never leaves `rdata` NULL for a non-zero length. -/
def cacheIn (env : Env) (c : Core) (r : Resource) (src : Addr) : Res Core :=
  match c.flush env r with
  | .ok c =>
    if r.ttl = 0 then
      deleteF env r (bucket r.name lprime) ((c.chain r.name).length + 1) c
    else c.insert env r src
  | .ub => .ub
  | .hang => .hang

/-- `mdnsd_list`, `libmdnsd/mdnsd.c:1577-1580` with `_c_next`, `:149-162`.  An entry is
given by its position in the chain of `host`; `last` is `none` for NULL. -/
def list (c : Core) (host : Bytes) (type : Nat) (last : Option Nat) : Option Nat :=
  let start := match last with | none => 0 | some k => k + 1
  (((c.chain host).drop start).findIdx? fun e => e.rr.is host type).map (start + ·)

/-- `mdnsd_has_query`, `libmdnsd/mdnsd.c:1643-1646`. -/
def hasQuery (c : Core) (host : Bytes) : Bool := !(c.queries (bucket host sprime)).isEmpty

end Core

end Mdns
