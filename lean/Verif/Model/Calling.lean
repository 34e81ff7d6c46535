import Verif.Model.Ending
import Verif.Model.Reacting

/-!
# Callbacks that call the library, all at once

Answer callbacks and conflict callbacks that may make any calls of the API, whether a packet is received or made.  `Model/Ending` and
`Model/Reacting` are the cases where only one kind does, and answer callbacks only call `mdnsd_query`.  So may the callback for received records.
-/

namespace Mdns

open M

/-- What the callbacks of a program do: the calls they make one after the other, each depending on the state by then.  What they do depends on the
state they are called in, where the last event of the history is the call; whether an answer callback returns -1 also on the state after its
calls.  `libmdnsd/mdnsd.c:491`, `497`, `1236`. -/
structure Callbacks where
  answer : Core → List (Core → Op)
  stop : Core → Core → Bool
  conflict : Reaction
  receive : Core → List (Core → Op) := fun _ => []

variable {Q : Type} [QOps Q]

/-- A call that changes queries and cache only, such as `_q_done`, `libmdnsd/mdnsd.c:445-474`. -/
def cacheM (f : Core → Res Core) : M Q Unit := liftC fun c => (f c).bind fun c => .ok ((), c)

/-- The call of the answer callback in `_q_answer`, `libmdnsd/mdnsd.c:489-491`: whether it returned -1. -/
def callAnswerCb (env : Env) (p : Callbacks) (q : Nat) (rr : Answer) : M Q Bool := do
  let c ← core
  match c.qs q with
  | none => ub
  | some x => do
    let rr := if rr.ttl ≤ c.now.sec then { rr with ttl := 0 } else rr
    modC fun c => { c with log := c.log ++ [Event.answer q x.cb rr] }
    let c ← core
    reactWith env (p.answer c)
    let c' ← core
    pure (p.stop c c')

/-- `_q_answer`, `libmdnsd/mdnsd.c:487-493`, for an entry no longer in the cache: `c->q` is what it was when the entry was taken out. -/
def qAnswerCb (env : Env) (p : Callbacks) (e : Cached) : M Q Unit :=
  match e.q with
  | none => pure ()
  | some q => do
    if ← callAnswerCb env p q e.rr then cacheM fun c => c.qDone q

/-- The loop of `_c_expire`, `libmdnsd/mdnsd.c:502-528`, at position `k` of chain `i`. -/
def cExpireFCb (env : Env) (p : Callbacks) (i : Nat) : Nat → Nat → M Q Unit
  | 0, _ => hang
  | fuel + 1, k => do
    let c ← core
    match (c.cache i)[k]? with
    | none => pure ()
    | some e =>
      if c.now.sec ≥ e.rr.ttl then do
        modC fun c => { c with cache := upd c.cache i ((c.cache i).eraseIdx k) }
        qAnswerCb env p e
        cExpireFCb env p i fuel k
      else cExpireFCb env p i fuel (k + 1)

/-- `_c_expire`, `libmdnsd/mdnsd.c:502-528`. -/
def cExpireCb (env : Env) (p : Callbacks) (i : Nat) : M Q Unit := do
  let c ← core
  cExpireFCb env p i ((c.cache i).length + 1) 0

/-- The loop of `_gc`, `libmdnsd/mdnsd.c:535-538`: chains `lprime - n ..`. -/
def gcLoopCb (env : Env) (p : Callbacks) : Nat → M Q Unit
  | 0 => pure ()
  | n + 1 => do
    cExpireCb env p (lprime - (n + 1))
    gcLoopCb env p n

/-- `_gc`, `libmdnsd/mdnsd.c:531-541`. -/
def gcCb (env : Env) (p : Callbacks) : M Q Unit := do
  gcLoopCb env p lprime
  modC fun c => { c with expireall := c.now.sec + gcInterval }

/-- The deletion loop of `_cache`, `libmdnsd/mdnsd.c:558-564`. -/
def deleteFCb (env : Env) (p : Callbacks) (r : Resource) (i : Nat) : Nat → M Q Unit
  | 0 => hang
  | fuel + 1 => do
    let c ← core
    match (c.cache i).findIdx? (fun e => e.rr.is r.name r.type && aMatch r e.rr) with
    | none => pure ()
    | some k => do
      modC fun c => c.modEntry i k fun e => { e with rr := { e.rr with ttl := 0 } }
      cExpireCb env p i
      deleteFCb env p r i fuel

/-- The cache flush of `_cache`, `libmdnsd/mdnsd.c:549-554`. -/
def flushCb (env : Env) (p : Callbacks) (r : Resource) : M Q Unit := do
  let c ← core
  if r.cls = 32768 + c.cls then do
    modC fun c => { c with
      cache := upd c.cache (bucket r.name lprime)
        ((c.chain r.name).map fun e =>
          if e.rr.is r.name r.type then { e with rr := { e.rr with ttl := 0 } } else e) }
    cExpireCb env p (bucket r.name lprime)

/-- The query of the first entry of a chain, for `_q_done` in `_q_answer`: `c->q` is read again after the callback.  `libmdnsd/mdnsd.c:492`. -/
def Core.doneHead (i : Nat) (c : Core) : Res Core :=
  match (c.cache i).head? with
  | some { q := some q, .. } => c.qDone q
  | _ => .ub

/-- `_cache` behind the deletions, `libmdnsd/mdnsd.c:573-655`. -/
def insertCb (env : Env) (p : Callbacks) (r : Resource) (src : Addr) : M Q Unit := do
  let i := bucket r.name lprime
  let c ← core
  let ttl := c.now.sec + r.ttl / 2 + 8
  match (c.cache i).findIdx? (fun e => e.rr.is r.name r.type && aMatch r e.rr) with
  | some k => modC fun c => c.modEntry i k fun e => { e with rr := { e.rr with ttl := ttl } }
  | none => do
    let q ← liftC fun c => (c.qFind r.name r.type).bind fun q => .ok (q, c)
    let e : Cached := { rr := Core.newEntry r src ttl, q := q }
    modC fun c => { c with cache := upd c.cache i (e :: c.cache i) }
    match q with
    | none => pure ()
    | some q => do
      if ← callAnswerCb env p q e.rr then cacheM (Core.doneHead i)

/-- `_cache`, `libmdnsd/mdnsd.c:543-656`. -/
def cacheInCb (env : Env) (p : Callbacks) (r : Resource) (src : Addr) : M Q Unit := do
  flushCb env p r
  let c ← core
  if r.ttl = 0 then deleteFCb env p r (bucket r.name lprime) ((c.chain r.name).length + 1)
  else insertCb env p r src

/-- The callback for received records and the cache, `libmdnsd/mdnsd.c:1235-1241`: nothing is held across the callback. -/
def inRestCb (env : Env) (p : Callbacks) (src : Addr) (a : Resource) : M Q Unit := do
  let c ← core
  if c.recvCb then do
    modC fun c => { c with log := c.log ++ [Event.received a] }
    let c ← core
    reactWith env (p.receive c)
  cacheInCb env p a src

/-- One answer, `libmdnsd/mdnsd.c:1212-1242`: gives `did_addr_refresh`. -/
def inAnswerCb (env : Env) (p : Callbacks) (src : Addr) (a : Resource) (did : Bool) : M Q Bool := do
  let r ← rFirst a.name a.type
  let bad ← match r with
    | none => pure none
    | some r => do
      let x ← getRec r
      pure (if x.unique ≠ 0 ∧ x.modified ∧ aMatch a x.rr then some r else none)
  match bad with
  | none => do
    inRestCb env p src a
    pure did
  | some r => do
    if !did then modC (refreshLocals env true)
    if ← isLocal env src then pure true
    else do
      conflictR env p.conflict r
      inRestCb env p src a
      pure true

/-- The loop over the answers.  `libmdnsd/mdnsd.c:1211-1244`. -/
def inAnswersCb (env : Env) (p : Callbacks) (src : Addr) : List Resource → Bool → M Q Unit
  | [], _ => pure ()
  | a :: rest, did => do
    let did ← inAnswerCb env p src a did
    inAnswersCb env p src rest did

/-- `mdnsd_in`, `libmdnsd/mdnsd.c:1111-1245`. -/
def inMsgCb (env : Env) (p : Callbacks) (now : TV) (m : Msg) (src : Addr) : M Q Nat := do
  let c ← core
  if c.shutdown then pure 1
  else do
    modC fun c => { c with now := now }
    if ← isLocal env src then pure 0
    else if !m.header.qr then do
      inQuestionsR env p.conflict m src m.qd false
      pure 0
    else do
      inAnswersCb env p src m.an false
      pure 0

/-- The second loop over the queries, `libmdnsd/mdnsd.c:1419-1444`; `q` is the current query.  Gives message, `nextbest` and `ret`. -/
def updateLoopCb (env : Env) (p : Callbacks) : Nat → Option Nat → Out → Nat → Nat → M Q (Out × Nat × Nat)
  | _, none, m, best, ret => pure (m, best, ret)
  | 0, some _, _, _, _ => hang
  | fuel + 1, some q, m, best, ret => do
    let c ← core
    match c.qs q with
    | none => ub
    | some x =>
      if x.nexttry = 0 ∨ x.nexttry > c.now.sec then
        updateLoopCb env p fuel (behind q c.qlist).head? m best ret
      else if x.tries = 3 then do
        cExpireCb env p (bucket x.name lprime)
        -- `q` may have been freed by a callback
        cacheM fun c => c.qReset q
        let c ← core
        updateLoopCb env p fuel (behind q c.qlist).head? m best ret
      else do
        let tries := x.tries + 1
        let nt := c.now.sec + tries
        modC fun c => { c with qs := upd c.qs q (some { x with nexttry := nt, tries := tries }) }
        let c ← core
        let best := if best = 0 ∨ nt < best then nt else best
        let m := knownLoop c x (c.chain x.name) m
        updateLoopCb env p fuel (behind q c.qlist).head? m best (ret + 1)

/-- The questions, `libmdnsd/mdnsd.c:1405-1446`. -/
def outQuestionsCb (env : Env) (p : Callbacks) (m : Out) : M Q (Out × Nat) := do
  let c ← core
  if c.checkqlist ≠ 0 ∧ c.now.sec ≥ c.checkqlist then do
    let (m, best) ← liftC fun c => (askLoop c c.qlist m 0).bind fun x => .ok (x, c)
    let (m, best, ret) ← updateLoopCb env p c.qlist.length c.qlist.head? m best 0
    modC fun c => { c with checkqlist := best }
    pure (m, ret)
  else pure (m, 0)

/-- `mdnsd_out` behind the publish retries, `libmdnsd/mdnsd.c:1341-1451`: no shutdown. -/
def outRestCb (env : Env) (p : Callbacks) (m : Out) (seen : List Nat) (ret : Nat) : M Q (Nat × Out) := do
  let n ← qFuel
  let c ← core
  let h ← qHead .pause
  let (m, seen, ret) ←
    if h ≠ none ∧ tvdiff c.now c.pause ≤ 0 then rOut .pause n m seen ret else pure (m, seen, ret)
  let (m, _) ← additionals seen m seen
  if ret ≠ 0 then pure (ret, m)
  else do
    let m := { m with qr := false, aa := false }
    let (m, ret) ← outProbe m
    if ret ≠ 0 then pure (ret, m)
    else do
      let (m, ret) ← outQuestionsCb env p m
      let c ← core
      if c.now.sec > c.expireall then gcCb env p
      pure (ret, m)

/-- `mdnsd_out`, `libmdnsd/mdnsd.c:1247-1452`: gives the value returned, the message and its destination. -/
def outMsgCb (env : Env) (p : Callbacks) (now : TV) : M Q (Nat × Out × Addr) := do
  modC fun c => { c with now := now }
  let c ← core
  match c.uanswers with
  | u :: _ => do
    let m ← outUnicast u
    pure (1, m, u.to)
  | [] => do
    let n ← qFuel
    let (m, seen, ret) ← rOut .now n {} [] 0
    let (m, seen, ret) ← outPublish m seen ret
    if c.shutdown then pure (ret, m, mcast c.family)
    else do
      let (ret, m) ← outRestCb env p m seen ret
      pure (ret, m, mcast c.family)

/-- One call; no other function calls callbacks.  `libmdnsd/mdnsd.c:937-1834`. -/
def stepCb (env : Env) (p : Callbacks) : Op → M Q OpOut
  | .recv now m src => do let _ ← inMsgCb env p now m src; pure .unit
  | .send now => do
    let (ret, m, to) ← outMsgCb env p now
    pure (.sent ret m to)
  | o => step env o

end Mdns
