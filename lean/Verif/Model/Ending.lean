import Verif.Model.Alloc

/-!
# Answer callbacks that end queries, `libmdnsd/mdnsd.c`

In the other models an answer callback may register queries, and end the query it is called for by returning -1.  `libmdnsd/mdnsd.h:181-186` allows
another way to end a query: `mdnsd_query` with NULL.  Here callbacks call it for any query, whenever they are called: in `mdnsd_in` and in
`mdnsd_out`.  Allocation does not fail.
-/

namespace Mdns

open M

/-- What an answer callback does: the calls of `mdnsd_query` it makes, in order (`none` is NULL, which ends the query), and whether it
returns -1.  `libmdnsd/mdnsd.c:491`, `1535-1575`. -/
structure Acts where
  stop : Bool := false
  calls : List (Bytes × Nat × Option Nat) := []

/-- The callbacks of a program: what they do depends on all callbacks made so far, the current one last.  `libmdnsd/mdnsd.c:491`. -/
abbrev Prog := List Event → Acts

namespace Core

/-- Calls of `mdnsd_query` one after the other, `libmdnsd/mdnsd.c:1535-1575`. -/
def calls (c : Core) : List (Bytes × Nat × Option Nat) → Res Core
  | [] => .ok c
  | (host, type, a) :: rest =>
    match c.query host type a with
    | .ok c => c.calls rest
    | .ub => .ub
    | .hang => .hang

/-- The call of the answer callback in `_q_answer`, `libmdnsd/mdnsd.c:489-491`: whether it returned -1, and the new state. -/
def callAnswerE (p : Prog) (c : Core) (q : Nat) (rr : Answer) : Res (Bool × Core) :=
  match c.qs q with
  | none => .ub
  | some x =>
    let rr := if rr.ttl ≤ c.now.sec then { rr with ttl := 0 } else rr
    let c := { c with log := c.log ++ [Event.answer q x.cb rr] }
    let act := p c.log
    match c.calls act.calls with
    | .ok c => .ok (act.stop, c)
    | .ub => .ub
    | .hang => .hang

/-- `_q_answer`, `libmdnsd/mdnsd.c:487-493`, for an entry no longer in the cache: `c->q` is what it was when the entry was taken out. -/
def qAnswerE (p : Prog) (c : Core) (e : Cached) : Res Core :=
  match e.q with
  | none => .ok c
  | some q =>
    match c.callAnswerE p q e.rr with
    | .ok (stop, c) => if stop then c.qDone q else .ok c
    | .ub => .ub
    | .hang => .hang

/-- The loop of `_c_expire`, `libmdnsd/mdnsd.c:502-528`, at position `k` of chain `i`. -/
def cExpireFE (p : Prog) (i : Nat) : Nat → Nat → Core → Res Core
  | 0, _, _ => .hang
  | fuel + 1, k, c =>
    match (c.cache i)[k]? with
    | none => .ok c
    | some e =>
      if c.now.sec ≥ e.rr.ttl then
        match ({ c with cache := upd c.cache i ((c.cache i).eraseIdx k) } : Core).qAnswerE p e with
        | .ok c => cExpireFE p i fuel k c
        | .ub => .ub
        | .hang => .hang
      else cExpireFE p i fuel (k + 1) c

/-- `_c_expire`, `libmdnsd/mdnsd.c:502-528`. -/
def cExpireE (p : Prog) (c : Core) (i : Nat) : Res Core := cExpireFE p i ((c.cache i).length + 1) 0 c

/-- `_gc`, `libmdnsd/mdnsd.c:531-541`. -/
def gcE (p : Prog) (c : Core) : Res Core :=
  match go lprime c with
  | .ok c => .ok { c with expireall := c.now.sec + gcInterval }
  | .ub => .ub
  | .hang => .hang
where
  /-- chains `lprime - n ..` -/
  go : Nat → Core → Res Core
    | 0, c => .ok c
    | n + 1, c =>
      match c.cExpireE p (lprime - (n + 1)) with
      | .ok c => go n c
      | .ub => .ub
      | .hang => .hang

/-- The deletion loop of `_cache`, `libmdnsd/mdnsd.c:558-564`. -/
def deleteFE (p : Prog) (r : Resource) (i : Nat) : Nat → Core → Res Core
  | 0, _ => .hang
  | fuel + 1, c =>
    match (c.cache i).findIdx? (fun e => e.rr.is r.name r.type && aMatch r e.rr) with
    | none => .ok c
    | some k =>
      match (c.modEntry i k fun e => { e with rr := { e.rr with ttl := 0 } }).cExpireE p i with
      | .ok c => deleteFE p r i fuel c
      | .ub => .ub
      | .hang => .hang

/-- The cache flush of `_cache`, `libmdnsd/mdnsd.c:549-554`. -/
def flushE (p : Prog) (c : Core) (r : Resource) : Res Core :=
  if r.cls = 32768 + c.cls then
    ({ c with
        cache := upd c.cache (bucket r.name lprime)
          ((c.chain r.name).map fun e =>
            if e.rr.is r.name r.type then { e with rr := { e.rr with ttl := 0 } } else e) } :
        Core).cExpireE p (bucket r.name lprime)
  else .ok c

/-- `_cache` behind the deletions, `libmdnsd/mdnsd.c:573-655`; `c->q` is read again after the callback, `:492`. -/
def insertE (p : Prog) (c : Core) (r : Resource) (src : Addr) : Res Core :=
  let i := bucket r.name lprime
  let ttl := c.now.sec + r.ttl / 2 + 8
  match (c.cache i).findIdx? (fun e => e.rr.is r.name r.type && aMatch r e.rr) with
  | some k => .ok (c.modEntry i k fun e => { e with rr := { e.rr with ttl := ttl } })
  | none =>
    match c.qFind r.name r.type with
    | .ok q =>
      let e : Cached := { rr := newEntry r src ttl, q := q }
      let c := { c with cache := upd c.cache i (e :: c.cache i) }
      match q with
      | none => .ok c
      | some q =>
        match c.callAnswerE p q e.rr with
        | .ok (stop, c) =>
          if stop then
            match (c.cache i).head? with
            | some { q := some q', .. } => c.qDone q'
            | _ => .ub
          else .ok c
        | .ub => .ub
        | .hang => .hang
    | .ub => .ub
    | .hang => .hang

/-- `_cache`, `libmdnsd/mdnsd.c:543-656`. -/
def cacheInE (p : Prog) (c : Core) (r : Resource) (src : Addr) : Res Core :=
  match c.flushE p r with
  | .ok c =>
    if r.ttl = 0 then
      deleteFE p r (bucket r.name lprime) ((c.chain r.name).length + 1) c
    else c.insertE p r src
  | .ub => .ub
  | .hang => .hang

end Core

variable {Q : Type} [QOps Q]

/-- One answer, `libmdnsd/mdnsd.c:1212-1242`. -/
def inAnswerE (env : Env) (p : Prog) (src : Addr) (a : Resource) (did : Bool) : M Q Bool := do
  let r ← rFirst a.name a.type
  let bad ← match r with
    | none => pure none
    | some r => do
      let x ← getRec r
      pure (if x.unique ≠ 0 ∧ x.modified ∧ aMatch a x.rr then some r else none)
  match bad with
  | none => do
    rest
    pure did
  | some r => do
    if !did then modC (refreshLocals env true)
    if ← isLocal env src then pure true
    else do
      conflict r
      rest
      pure true
where
  /-- `libmdnsd/mdnsd.c:1235-1241` -/
  rest : M Q Unit := do
    modC fun c => if c.recvCb then { c with log := c.log ++ [Event.received a] } else c
    liftC fun c => (c.cacheInE p a src).bind fun c => .ok ((), c)

/-- The loop over the answers, `libmdnsd/mdnsd.c:1211-1244`. -/
def inAnswersE (env : Env) (p : Prog) (src : Addr) : List Resource → Bool → M Q Unit
  | [], _ => pure ()
  | a :: rest, did => do
    let did ← inAnswerE env p src a did
    inAnswersE env p src rest did

/-- `mdnsd_in`, `libmdnsd/mdnsd.c:1111-1245`. -/
def inMsgE (env : Env) (p : Prog) (now : TV) (m : Msg) (src : Addr) : M Q Nat := do
  let c ← core
  if c.shutdown then pure 1
  else do
    modC fun c => { c with now := now }
    if ← isLocal env src then pure 0
    else if !m.header.qr then do
      inQuestions env m src m.qd false
      pure 0
    else do
      inAnswersE env p src m.an false
      pure 0

/-- The second loop over the queries, `libmdnsd/mdnsd.c:1419-1444`; `q` is the current query.  Gives message, `nextbest` and `ret`. -/
def updateLoopE (p : Prog) : Nat → Option Nat → Out → Nat → Nat → Core → Res ((Out × Nat × Nat) × Core)
  | _, none, m, best, ret, c => .ok ((m, best, ret), c)
  | 0, some _, _, _, _, _ => .hang
  | fuel + 1, some q, m, best, ret, c =>
    match c.qs q with
    | none => .ub
    | some x =>
      if x.nexttry = 0 ∨ x.nexttry > c.now.sec then
        updateLoopE p fuel (behind q c.qlist).head? m best ret c
      else if x.tries = 3 then
        match c.cExpireE p (bucket x.name lprime) with
        | .ok c =>
          -- `q` may have been freed by a callback
          match c.qReset q with
          | .ok c => updateLoopE p fuel (behind q c.qlist).head? m best ret c
          | .ub => .ub
          | .hang => .hang
        | .ub => .ub
        | .hang => .hang
      else
        let tries := x.tries + 1
        let nt := c.now.sec + tries
        let c := { c with qs := upd c.qs q (some { x with nexttry := nt, tries := tries }) }
        let best := if best = 0 ∨ nt < best then nt else best
        let m := knownLoop c x (c.chain x.name) m
        updateLoopE p fuel (behind q c.qlist).head? m best (ret + 1) c

/-- The questions, `libmdnsd/mdnsd.c:1405-1446`.  The number of queries at the start bounds the second loop: callbacks add queries in front, or
take some out. -/
def outQuestionsE (p : Prog) (m : Out) (c : Core) : Res ((Out × Nat) × Core) :=
  if c.checkqlist ≠ 0 ∧ c.now.sec ≥ c.checkqlist then
    match askLoop c c.qlist m 0 with
    | .ok (m, best) =>
      match updateLoopE p c.qlist.length c.qlist.head? m best 0 c with
      | .ok ((m, best, ret), c) => .ok ((m, ret), { c with checkqlist := best })
      | .ub => .ub
      | .hang => .hang
    | .ub => .ub
    | .hang => .hang
  else .ok ((m, 0), c)

/-- `mdnsd_out` behind the publish retries, `libmdnsd/mdnsd.c:1341-1451`: no shutdown. -/
def outRestE (p : Prog) (m : Out) (seen : List Nat) (ret : Nat) : M Q (Nat × Out) := do
  let n ← qFuel
  let c ← core
  let h ← qHead .pause
  let (m, seen, ret) ←
    if h ≠ none ∧ tvdiff c.now c.pause ≤ 0 then rOut .pause n m seen ret else pure (m, seen, ret)
  let (m, _) ← additionals seen m seen
  if ret ≠ 0 then pure (ret, m)
  else do
    let m := { m with qr := false, aa := false }
    let (m, ret) ← outProbe m
    if ret ≠ 0 then pure (ret, m)
    else do
      let (m, ret) ← liftC (outQuestionsE p m)
      let c ← core
      if c.now.sec > c.expireall then
        liftC fun c => (c.gcE p).bind fun c => .ok ((), c)
      pure (ret, m)

/-- `mdnsd_out`, `libmdnsd/mdnsd.c:1247-1452`: gives the value returned, the message and its destination. -/
def outMsgE (p : Prog) (now : TV) : M Q (Nat × Out × Addr) := do
  modC fun c => { c with now := now }
  let c ← core
  match c.uanswers with
  | u :: _ => do
    let m ← outUnicast u
    pure (1, m, u.to)
  | [] => do
    let n ← qFuel
    let (m, seen, ret) ← rOut .now n {} [] 0
    let (m, seen, ret) ← outPublish m seen ret
    if c.shutdown then pure (ret, m, mcast c.family)
    else do
      let (ret, m) ← outRestE p m seen ret
      pure (ret, m, mcast c.family)

/-- One call; no other function calls answer callbacks.  `libmdnsd/mdnsd.c:937-1834`. -/
def stepE (env : Env) (p : Prog) : Op → M Q OpOut
  | .recv now m src => do let _ ← inMsgE env p now m src; pure .unit
  | .send now => do
    let (ret, m, to) ← outMsgE p now
    pure (.sent ret m to)
  | o => step env o

end Mdns
