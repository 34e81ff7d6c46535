import Verif.Model.Records

/-!
# Receiving, sending and sleeping: `mdnsd_in`, `mdnsd_out`, `mdnsd_sleep`
-/

namespace Mdns

open M

variable {Q : Type} [QOps Q]

/-! ### Own addresses -/

/-- `_refresh_local_addrs`, `libmdnsd/mdnsd.c:820-836`.  (For a clock reading of zero
seconds the C code stores `time(NULL)`, which is zero as well.) -/
def refreshLocals (env : Env) (force : Bool) (c : Core) : Core :=
  if c.refreshed ≠ 0 ∧ (c.now.sec : Int) - c.refreshed < 5 ∧ ¬ force then c
  else
    match env.ifaddrs c.nifs with
    | none => { c with nifs := c.nifs + 1 }
    | some l => { c with nifs := c.nifs + 1, locals := l, refreshed := c.now.sec }

/-- `_is_local`, `libmdnsd/mdnsd.c:839-896`. -/
def isLocal (env : Env) (src : Addr) : M Q Bool := do
  let c ← core
  let own := match src.ip with
    | .v4 a => a == c.addr
    | .v6 a => a == c.addr6
  if own then pure true
  else do
    modC (refreshLocals env false)
    let c ← core
    pure (c.locals.contains src.ip)

/-! ### Receiving -/

/-- Part of the conditions in `libmdnsd/mdnsd.c:1163` and `:1185`: the answer is for
the question. -/
def answers (q : Question) (a : Resource) : Bool := q.type == a.type && q.name == a.name

/-- The conflict check for a record being probed, `libmdnsd/mdnsd.c:1162-1179`: gives
`did_addr_refresh` and whether there was a conflict. -/
def probeConflict (env : Env) (src : Addr) (q : Question) (r : Nat) :
    List Resource → Bool → M Q (Bool × Bool)
  | [], did => pure (did, false)
  | a :: rest, did =>
    if answers q a then do
      let x ← getRec r
      if aMatch a x.rr then probeConflict env src q r rest did
      else do
        if !did then modC (refreshLocals env true)
        if ← isLocal env src then probeConflict env src q r rest true
        else do
          conflict r
          pure (true, true)
    else probeConflict env src q r rest did

/-- The known-answer check, `libmdnsd/mdnsd.c:1184-1194`: is the record listed? -/
def knownAnswer (q : Question) (r : Nat) : List Resource → M Q Bool
  | [] => pure false
  | a :: rest =>
    if answers q a then do
      modC fun c => if c.recvCb then { c with log := c.log ++ [Event.received a] } else c
      let x ← getRec r
      if aMatch a x.rr then pure true else knownAnswer q r rest
    else knownAnswer q r rest

/-- The loop over the records that may answer a question, `libmdnsd/mdnsd.c:1153-1201`:
gives `did_addr_refresh` and `has_conflict`. -/
def answerLoop (env : Env) (src : Addr) (q : Question) (an : List Resource) :
    Nat → Option Nat → Bool → Bool → M Q (Bool × Bool)
  | _, none, did, conf => pure (did, conf)
  | 0, some _, _, _ => hang
  | fuel + 1, some r, did, conf => do
    let x ← getRec r
    let next ← rNext r q.name q.type
    if x.unique ≠ 0 ∧ x.unique < 5 ∧ ¬ x.modified then do
      let (did, cf) ← probeConflict env src q r an did
      answerLoop env src q an fuel next did (conf || cf)
    else do
      let known ← knownAnswer q r an
      if !known then rSend r
      answerLoop env src q an fuel next did conf

/-- The loop for service discovery, `libmdnsd/mdnsd.c:1143-1147`. -/
def discoLoop (q : Question) : Nat → Option Nat → M Q Unit
  | _, none => pure ()
  | 0, some _ => hang
  | fuel + 1, some r => do
    let x ← getRec r
    if x.rr.name = discoName then rSend r
    let next ← rNext r q.name q.type
    discoLoop q fuel next

/-- One question, `libmdnsd/mdnsd.c:1128-1206`: gives `did_addr_refresh`. -/
def inQuestion (env : Env) (m : Msg) (src : Addr) (q : Question) (did : Bool) : M Q Bool := do
  let c ← core
  if q.cls ≠ c.cls then pure did
  else do
    let r ← rFirst q.name q.type
    match r with
    | none => pure did
    | some start => do
      let n ← qFuel
      if q.name = discoName then do
        modC fun c => { c with disco := true }
        discoLoop q n (some start)
        pure did
      else do
        let (did, conf) ← answerLoop env src q m.an n (some start) did false
        if ¬ conf ∧ src.port ≠ 5353 then uPush start m.id src
        pure did

/-- The loop over the questions.  `libmdnsd/mdnsd.c:1126-1209`. -/
def inQuestions (env : Env) (m : Msg) (src : Addr) : List Question → Bool → M Q Unit
  | [], _ => pure ()
  | q :: rest, did => do
    let did ← inQuestion env m src q did
    inQuestions env m src rest did

/-- One answer, `libmdnsd/mdnsd.c:1212-1242`: gives `did_addr_refresh`. -/
def inAnswer (env : Env) (src : Addr) (a : Resource) (did : Bool) : M Q Bool := do
  let r ← rFirst a.name a.type
  let bad ← match r with
    | none => pure none
    | some r => do
      let x ← getRec r
      pure (if x.unique ≠ 0 ∧ x.modified ∧ aMatch a x.rr then some r else none)
  match bad with
  | none => do
    rest
    pure did
  | some r => do
    if !did then modC (refreshLocals env true)
    if ← isLocal env src then pure true
    else do
      conflict r
      rest
      pure true
where
  /-- `libmdnsd/mdnsd.c:1235-1241` -/
  rest : M Q Unit := do
    modC fun c => if c.recvCb then { c with log := c.log ++ [Event.received a] } else c
    liftC fun c => (c.cacheIn env a src).bind fun c => .ok ((), c)

/-- The loop over the answers.  `libmdnsd/mdnsd.c:1211-1244`. -/
def inAnswers (env : Env) (src : Addr) : List Resource → Bool → M Q Unit
  | [], _ => pure ()
  | a :: rest, did => do
    let did ← inAnswer env src a did
    inAnswers env src rest did

/-- `mdnsd_in`, `libmdnsd/mdnsd.c:1111-1245`, on a parsed message; `now` is the clock. -/
def inMsg (env : Env) (now : TV) (m : Msg) (src : Addr) : M Q Nat := do
  let c ← core
  if c.shutdown then pure 1
  else do
    modC fun c => { c with now := now }
    if ← isLocal env src then pure 0
    else if !m.header.qr then do
      inQuestions env m src m.qd false
      pure 0
    else do
      inAnswers env src m.an false
      pure 0

/-! ### Sending -/

/-- `_rr_len`, `libmdnsd/mdnsd.c:179-195`. -/
def rrLen (a : Answer) : Nat :=
  12 + (a.rdata.getD []).length + (a.rdname.getD []).length + (if a.ip ≠ ip4Zero then 4 else 0) +
    (if a.ip6 ≠ ip6Zero then 16 else 0) + (if a.type = 12 then 6 else 0)

/-- `_a_copy`, `libmdnsd/mdnsd.c:659-684`.  Nothing is written for a record without
any data. -/
def aCopy (a : Answer) : List MOp :=
  if a.type = 33 then
    match a.rdname with
    | some n => [.b (.srv a.priority a.weight a.port n)]
    | none => [.srvNull a.priority a.weight a.port]
  else
    match a.rdname, a.rdata with
    | some n, _ => [.b (.name n)]
    | none, some d => [.b (.raw d)]
    | none, none =>
      if a.ip ≠ ip4Zero then [.b (.ipv4 a.ip)]
      else if a.ip6 ≠ ip6Zero then [.b (.ipv6 a.ip6)]
      else []

/-- A record in a section followed by its data.  `libmdnsd/mdnsd.c:659-690`, `717-728`. -/
def rrOps (s : Section) (a : Answer) (cls : Nat) : List MOp :=
  .b (.rr s a.name a.type cls a.ttl) :: aCopy a

/-- Add the record `r`.  `libmdnsd/mdnsd.c:717-728`, `772-817`. -/
def Out.put (m : Out) (s : Section) (r : Nat) (a : Answer) (cls : Nat) : Out :=
  { m.add (rrOps s a cls) with tags := m.tags ++ [(s, r)] }

/-- Class with the cache-flush bit for unique records, `libmdnsd/mdnsd.c:724`, `:795-798`,
`:1306-1309`. -/
def Rec.cls (x : Rec) (cls : Nat) : Nat := if x.unique ≠ 0 then cls + 32768 else cls

/-- `ADDITIONAL_MAX`, `libmdnsd/mdnsd.c:692`. -/
def additionalMax : Nat := 64

/-- `_answered_add`, `libmdnsd/mdnsd.c:698-702`. -/
def answeredAdd (seen : List Nat) (r : Nat) : List Nat :=
  if seen.length < additionalMax then seen ++ [r] else seen

/-- `_ar`, `libmdnsd/mdnsd.c:717-727`. -/
def ar (m : Out) (seen : List Nat) (r : Nat) : M Q (Out × List Nat) := do
  if r ∈ seen then pure (m, seen)
  else do
    let c ← core
    let x ← getRec r
    if m.len + rrLen x.rr ≥ c.frame then pure (m, seen)
    else pure (m.put .ar r x.rr (x.cls c.cls), answeredAdd seen r)

/-- The loop of `_ar_addr`, `libmdnsd/mdnsd.c:737-742`. -/
def arAddrLoop (host : Bytes) : List Nat → Out → List Nat → M Q (Out × List Nat)
  | [], m, seen => pure (m, seen)
  | r :: rest, m, seen => do
    let x ← getRec r
    if x.rr.name = host ∧ (x.rr.type = 1 ∨ x.rr.type = 28) then do
      let (m, seen) ← ar m seen r
      arAddrLoop host rest m seen
    else arAddrLoop host rest m seen

/-- `_ar_addr`, `libmdnsd/mdnsd.c:730-743`. -/
def arAddr (host : Option Bytes) (m : Out) (seen : List Nat) : M Q (Out × List Nat) :=
  match host with
  | none => pure (m, seen)
  | some host => do
    let c ← core
    arAddrLoop host (c.published (bucket host sprime)) m seen

/-- The loop of `_additional`, `libmdnsd/mdnsd.c:758-768`. -/
def additionalLoop (name : Bytes) : List Nat → Out → List Nat → M Q (Out × List Nat)
  | [], m, seen => pure (m, seen)
  | r :: rest, m, seen => do
    let x ← getRec r
    if x.rr.name = name ∧ x.rr.type = 33 then do
      let (m, seen) ← ar m seen r
      let (m, seen) ← arAddr x.rr.rdname m seen
      additionalLoop name rest m seen
    else if x.rr.name = name ∧ x.rr.type = 16 then do
      let (m, seen) ← ar m seen r
      additionalLoop name rest m seen
    else additionalLoop name rest m seen

/-- `_additional`, `libmdnsd/mdnsd.c:746-769`. -/
def additional (m : Out) (seen : List Nat) (r : Nat) : M Q (Out × List Nat) := do
  let x ← getRec r
  if x.rr.type = 33 then arAddr x.rr.rdname m seen
  else
    match x.rr.rdname with
    | none => pure (m, seen)
    | some n =>
      if x.rr.type ≠ 12 ∨ x.rr.name = discoName then pure (m, seen)
      else do
        let c ← core
        additionalLoop n (c.published (bucket n sprime)) m seen

/-- The loop over the answers, `libmdnsd/mdnsd.c:1346-1347`. -/
def additionals : List Nat → Out → List Nat → M Q (Out × List Nat)
  | [], m, seen => pure (m, seen)
  | r :: rest, m, seen => do
    let (m, seen) ← additional m seen r
    additionals rest m seen

/-- `_r_out`, `libmdnsd/mdnsd.c:772-817`: gives the message, the records answered and
the number of records added to `ret`. -/
def rOut (w : W) : Nat → Out → List Nat → Nat → M Q (Out × List Nat × Nat)
  | fuel, m, seen, ret => do
    match ← qHead w with
    | none => pure (m, seen, ret)
    | some r =>
      match fuel with
      | 0 => hang
      | fuel + 1 => do
        let x ← getRec r
        let c ← core
        if ¬ m.len + rrLen x.rr < c.frame then pure (m, seen, ret)
        else do
          liftQ fun q => (QOps.pop w q).bind fun q => .ok ((), q)
          if c.disco ∧ (x.rr.type ≠ 12 ∨ x.rr.name ≠ discoName) then rOut w fuel m seen ret
          else do
            let m := m.put .an r x.rr (x.cls c.cls)
            modRec r fun x => { x with lastSent := c.now, modified := false }
            if x.rr.ttl = 0 then do
              rRemoveLists r (some w)
              rDone r
              rOut w fuel m seen (ret + 1)
            else rOut w fuel m (answeredAdd seen r) (ret + 1)

/-- The publish loop, `libmdnsd/mdnsd.c:1293-1329`. -/
def publishLoop : Nat → Option Nat → Option Nat → Out → List Nat → Nat →
    M Q (Out × List Nat × Nat)
  | _, none, _, m, seen, ret => pure (m, seen, ret)
  | 0, some _, _, _, _, _ => hang
  | fuel + 1, some cur, last, m, seen, ret => do
    let x ← getRec cur
    let c ← core
    if ¬ m.len + rrLen x.rr < c.frame then pure (m, seen, ret)
    else do
      let next ← qNext .publish cur
      let m := m.put .an cur x.rr (x.cls c.cls)
      modRec cur fun x => { x with tries := x.tries + 1, lastSent := c.now }
      let seen := if x.rr.ttl ≠ 0 then answeredAdd seen cur else seen
      if x.rr.ttl ≠ 0 ∧ x.tries + 1 < 4 then
        publishLoop fuel next (some cur) m seen (ret + 1)
      else do
        liftQ fun q => (QOps.unlinkPublish cur last next q).bind fun q => .ok ((), q)
        if x.rr.ttl = 0 then rDone cur
        publishLoop fuel next last m seen (ret + 1)

/-- The publish retries, `libmdnsd/mdnsd.c:1288-1335`. -/
def outPublish (m : Out) (seen : List Nat) (ret : Nat) : M Q (Out × List Nat × Nat) := do
  let p ← qHead .probing
  let a ← qHead .publish
  let c ← core
  if p = none ∧ a ≠ none ∧ tvdiff c.now c.publish ≤ 0 then do
    let n ← qFuel
    let (m, seen, ret) ← publishLoop n a none m seen ret
    if (← qHead .publish) ≠ none then
      modC fun c => { c with publish := ⟨c.now.sec + 2, c.now.usec⟩ }
    pure (m, seen, ret)
  else pure (m, seen, ret)

/-- The first probe loop, `libmdnsd/mdnsd.c:1360-1383`. -/
def probeAsk : Nat → Option Nat → Option Nat → Out → M Q Out
  | _, none, _, m => pure m
  | 0, some _, _, _ => hang
  | fuel + 1, some r, last, m => do
    let x ← getRec r
    let next ← qNext .probing r
    if x.unique = 4 then do
      liftQ fun q => (QOps.unlinkProbing r last q).bind fun q => .ok ((), q)
      modRec r fun x => { x with unique := 5 }
      rPublish r
      probeAsk fuel next last m
    else do
      let c ← core
      modRec r fun x => { x with lastSent := c.now }
      probeAsk fuel next (some r) (m.add [.b (.qd x.rr.name x.rr.type c.cls)])

/-- The second probe loop, `libmdnsd/mdnsd.c:1386-1394`: gives the message and `ret`. -/
def probeAnswer : Nat → Option Nat → Out → Nat → M Q (Out × Nat)
  | _, none, m, ret => pure (m, ret)
  | 0, some _, _, _ => hang
  | fuel + 1, some r, m, ret => do
    let x ← getRec r
    let c ← core
    modRec r fun x => { x with unique := x.unique + 1, lastSent := c.now }
    let next ← qNext .probing r
    probeAnswer fuel next (m.put .ns r x.rr c.cls) (ret + 1)

/-- The probes, `libmdnsd/mdnsd.c:1356-1402`. -/
def outProbe (m : Out) : M Q (Out × Nat) := do
  let p ← qHead .probing
  let c ← core
  if p ≠ none ∧ tvdiff c.now c.probe ≤ 0 then do
    let n ← qFuel
    let m ← probeAsk n p none m
    let p ← qHead .probing
    let (m, ret) ← probeAnswer n p m 0
    if ret ≠ 0 then
      modC fun c => { c with probe := ⟨c.now.sec, c.now.usec + 250000⟩ }
    pure (m, ret)
  else pure (m, 0)

/-- The first loop over the queries, `libmdnsd/mdnsd.c:1411-1416`: the questions and
`nextbest`. -/
def askLoop (c : Core) : List Nat → Out → Nat → Res (Out × Nat)
  | [], m, best => .ok (m, best)
  | q :: rest, m, best =>
    match c.qs q with
    | none => .ub
    | some x =>
      if x.nexttry > 0 ∧ x.nexttry ≤ c.now.sec ∧ x.tries < 3 then
        askLoop c rest (m.add [.b (.qd x.name x.type c.cls)]) best
      else if x.nexttry > 0 ∧ (best = 0 ∨ x.nexttry < best) then askLoop c rest m x.nexttry
      else askLoop c rest m best

/-- The known answers for one question, `libmdnsd/mdnsd.c:1436-1443`: matching entries
in order, up to the first that expires soon or does not fit. -/
def knownLoop (c : Core) (x : Query) : List Cached → Out → Out
  | [], m => m
  | e :: rest, m =>
    if e.rr.is x.name x.type then
      if e.rr.ttl > c.now.sec + 8 ∧ m.len + rrLen e.rr < c.frame then
        knownLoop c x rest
          (m.add (.b (.rr .an x.name x.type c.cls (e.rr.ttl - c.now.sec)) :: aCopy e.rr))
      else m
    else knownLoop c x rest m

/-- The second loop over the queries, `libmdnsd/mdnsd.c:1419-1444`; `q` is the current
query.  Gives message, `nextbest` and `ret`. -/
def updateLoop (env : Env) : Nat → Option Nat → Out → Nat → Nat → Core →
    Res ((Out × Nat × Nat) × Core)
  | _, none, m, best, ret, c => .ok ((m, best, ret), c)
  | 0, some _, _, _, _, _ => .hang
  | fuel + 1, some q, m, best, ret, c =>
    match c.qs q with
    | none => .ub
    | some x =>
      if x.nexttry = 0 ∨ x.nexttry > c.now.sec then
        updateLoop env fuel (behind q c.qlist).head? m best ret c
      else if x.tries = 3 then
        match c.cExpire env (bucket x.name lprime) with
        | .ok c =>
          -- `q` may have been freed by a callback
          match c.qReset q with
          | .ok c => updateLoop env fuel (behind q c.qlist).head? m best ret c
          | .ub => .ub
          | .hang => .hang
        | .ub => .ub
        | .hang => .hang
      else
        let tries := x.tries + 1
        let nt := c.now.sec + tries
        let c := { c with qs := upd c.qs q (some { x with nexttry := nt, tries := tries }) }
        let best := if best = 0 ∨ nt < best then nt else best
        let m := knownLoop c x (c.chain x.name) m
        updateLoop env fuel (behind q c.qlist).head? m best (ret + 1) c

/-- The questions, `libmdnsd/mdnsd.c:1405-1446`.  The number of queries at the start
bounds the second loop: callbacks only add queries in front. -/
def outQuestions (env : Env) (m : Out) (c : Core) : Res ((Out × Nat) × Core) :=
  if c.checkqlist ≠ 0 ∧ c.now.sec ≥ c.checkqlist then
    match askLoop c c.qlist m 0 with
    | .ok (m, best) =>
      match updateLoop env c.qlist.length c.qlist.head? m best 0 c with
      | .ok ((m, best, ret), c) => .ok ((m, ret), { c with checkqlist := best })
      | .ub => .ub
      | .hang => .hang
    | .ub => .ub
    | .hang => .hang
  else .ok ((m, 0), c)

/-- The multicast destination, `mdns_mcast`, `libmdnsd/mdnsd.c:899-915`: 224.0.0.251 or
ff02::fb, port 5353. -/
def mcast : Family → Addr
  | .inet => ⟨.v4 #v[224, 0, 0, 251], 5353⟩
  | .inet6 => ⟨.v6 #v[0xff, 2, 0, 0, 0, 0, 0, 0, 0, 0, 0, 0, 0, 0, 0, 0xfb], 5353⟩

/-- The unicast answer, `libmdnsd/mdnsd.c:1263-1280`. -/
def outUnicast (u : Unicast) : M Q Out := do
  modC fun c => { c with uanswers := c.uanswers.drop 1 }
  let x ← getRec u.r
  let c ← core
  let m : Out := { id := u.id }
  let m := (m.add [.b (.qd x.rr.name x.rr.type c.cls)]).put .an u.r x.rr c.cls
  modRec u.r fun x => { x with lastSent := c.now }
  let (m, _) ← additional m [u.r] u.r
  pure m

/-- `mdnsd_out` behind the publish retries, `libmdnsd/mdnsd.c:1341-1451`: no shutdown. -/
def outRest (env : Env) (m : Out) (seen : List Nat) (ret : Nat) : M Q (Nat × Out) := do
  let n ← qFuel
  let c ← core
  let p ← qHead .pause
  let (m, seen, ret) ←
    if p ≠ none ∧ tvdiff c.now c.pause ≤ 0 then rOut .pause n m seen ret else pure (m, seen, ret)
  let (m, _) ← additionals seen m seen
  if ret ≠ 0 then pure (ret, m)
  else do
    let m := { m with qr := false, aa := false }
    let (m, ret) ← outProbe m
    if ret ≠ 0 then pure (ret, m)
    else do
      let (m, ret) ← liftC (outQuestions env m)
      let c ← core
      if c.now.sec > c.expireall then
        liftC fun c => (c.gc env).bind fun c => .ok ((), c)
      pure (ret, m)

/-- `mdnsd_out`, `libmdnsd/mdnsd.c:1247-1452`: gives the value returned, the message and
its destination. -/
def outMsg (env : Env) (now : TV) : M Q (Nat × Out × Addr) := do
  modC fun c => { c with now := now }
  let c ← core
  match c.uanswers with
  | u :: _ => do
    let m ← outUnicast u
    pure (1, m, u.to)
  | [] => do
    let n ← qFuel
    let (m, seen, ret) ← rOut .now n {} [] 0
    let (m, seen, ret) ← outPublish m seen ret
    if c.shutdown then pure (ret, m, mcast c.family)
    else do
      let (ret, m) ← outRest env m seen ret
      pure (ret, m, mcast c.family)

/-! ### Sleeping -/

/-- The `RET` macro, `libmdnsd/mdnsd.c:1455-1461`; the fuel is enough. -/
def normTv : Nat → TV → TV
  | 0, t => t
  | n + 1, t => if t.usec > 1000000 then normTv n ⟨t.sec + 1, t.usec - 1000000⟩ else t

/-- `RET` for `d->sleep`.  `libmdnsd/mdnsd.c:1455-1461`. -/
def retSleep (t : TV) : M Q TV := do
  let t := normTv (t.usec / 1000000 + 1) t
  modC fun c => { c with sleep := t }
  pure t

/-- The loop over the published records, `libmdnsd/mdnsd.c:1510-1527`: gives `expire`. -/
def republish (c : Core) : List Nat → Int → M Q Int
  | [], expire => pure expire
  | i :: rest, expire =>
    match (c.published i).head? with
    | none => republish c rest expire
    | some r => do
      let x ← getRec r
      let next : Int := (x.lastSent.sec : Int) + x.rr.ttl - c.now.sec
      if next ≤ 2 then rPush .pause r
      republish c rest (if next < expire then next else expire)

/-- `mdnsd_sleep`, `libmdnsd/mdnsd.c:1463-1533`. -/
def sleep (now : TV) : M Q TV := do
  modC fun c => { c with sleep := {} }
  let c ← core
  if c.uanswers ≠ [] ∨ (← qHead .now) ≠ none then pure {}
  else do
    modC fun c => { c with now := now }
    let c ← core
    if (← qHead .pause) ≠ none then retSleep ⟨0, (tvdiff c.now c.pause).toNat⟩
    else if (← qHead .probing) ≠ none then retSleep ⟨0, (tvdiff c.now c.probe).toNat⟩
    else if (← qHead .publish) ≠ none then retSleep ⟨0, (tvdiff c.now c.publish).toNat⟩
    else if c.checkqlist ≠ 0 then retSleep ⟨c.checkqlist - c.now.sec, 0⟩
    else do
      let expire : Int := (c.expireall : Int) - c.now.sec
      if expire < 0 then retSleep ⟨0, 0⟩
      else do
        let expire ← republish c (List.range sprime) expire
        let sec := if expire > 2 then (expire - 2).toNat else 0
        modC fun c => { c with pause := ⟨c.now.sec + sec, c.pause.usec⟩ }
        retSleep ⟨sec, 0⟩

/-! ### The whole library -/

/-- `mdnsd_new`, `libmdnsd/mdnsd.c:917-935`. -/
def newCore (cls frame : Nat) (now : TV) : Core :=
  { now := now, expireall := now.sec + gcInterval, cls := cls, frame := frame }

/-- Calls of the library, with the clock where it is read.  `libmdnsd/mdnsd.c:937-1834`. -/
inductive Op where
  | setFamily (f : Family)
  | setAddress (a : Ip4)
  | setIpv6Address (a : Ip6)
  | shutdown
  | receiveCallback (on : Bool)
  | recv (now : TV) (m : Msg) (src : Addr)
  | send (now : TV)
  | sleep (now : TV)
  | query (host : Bytes) (type : Nat) (answer : Option Nat)
  | shared (host : Bytes) (type ttl : Nat)
  | unique (host : Bytes) (type ttl : Nat) (conflict : Option Nat)
  | done (r : Nat)
  | setRaw (r : Nat) (data : Bytes)
  | setHost (r : Nat) (name : Bytes)
  | setIp (r : Nat) (ip : Ip4)
  | setIpv6 (r : Nat) (ip : Ip6)
  | setSrv (r priority weight port : Nat) (name : Bytes)
  | setAddresses (host : Bytes) (a : List Ip4)
  | setIpv6Addresses (host : Bytes) (a : List Ip6)
  | setInterface (v4 : List Ip4) (v6 : List Ip6)
  | clear
  /-- the end of `mdnsd_step`, `libmdnsd/mdnsd.c:1986-1987` -/
  | stepEnd

/-- What a call returns, as far as it matters here.  `libmdnsd/mdnsd.c:937-1834`. -/
inductive OpOut where
  | unit
  | sent (ret : Nat) (m : Out) (to : Addr)
  | time (t : TV)
  | handle (r : Nat)
deriving Repr, DecidableEq

/-- One call.  `libmdnsd/mdnsd.c:937-1834`. -/
def step (env : Env) : Op → M Q OpOut
  | .setFamily f => do modC fun c => { c with family := f }; pure .unit
  | .setAddress a => do Mdns.setAddress a; pure .unit
  | .setIpv6Address a => do Mdns.setIpv6Address a; pure .unit
  | .shutdown => do Mdns.shutdown; pure .unit
  | .receiveCallback b => do modC fun c => { c with recvCb := b }; pure .unit
  | .recv now m src => do let _ ← inMsg env now m src; pure .unit
  | .send now => do
    let (ret, m, to) ← outMsg env now
    pure (.sent ret m to)
  | .sleep now => do
    let t ← Mdns.sleep now
    pure (.time t)
  | .query h t a => do
    liftC fun c => (c.query h t a).bind fun c => .ok ((), c)
    pure .unit
  | .shared h t ttl => do
    let r ← Mdns.shared h t ttl
    pure (.handle r)
  | .unique h t ttl cf => do
    let r ← Mdns.unique h t ttl cf
    pure (.handle r)
  | .done r => do Mdns.done r; pure .unit
  | .setRaw r d => do Mdns.setRaw r d; pure .unit
  | .setHost r n => do Mdns.setHost r n; pure .unit
  | .setIp r a => do Mdns.setIp r a; pure .unit
  | .setIpv6 r a => do Mdns.setIpv6 r a; pure .unit
  | .setSrv r p w o n => do Mdns.setSrv r p w o n; pure .unit
  | .setAddresses h a => do setAddressesForHost h a; pure .unit
  | .setIpv6Addresses h a => do setIpv6AddressesForHost h a; pure .unit
  | .setInterface a b => do setInterfaceAddresses a b; pure .unit
  | .clear => do recordsClear; pure .unit
  | .stepEnd => do modC fun c => { c with disco := false }; pure .unit

/-- A sequence of calls: the results and the final state.  As an application makes them, `src/mdnsd.c:308-490`. -/
def run (env : Env) : List Op → M Q (List OpOut)
  | [] => pure []
  | o :: rest => do
    let x ← step env o
    let xs ← run env rest
    pure (x :: xs)

/-- A new daemon, heads and links.  `mdnsd_new`, `libmdnsd/mdnsd.c:917-935`. -/
def newD (cls frame : Nat) (now : TV) : D Ptrs := ⟨newCore cls frame now, {}⟩

end Mdns
