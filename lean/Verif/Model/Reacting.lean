import Verif.Model.Daemon

/-!
# Conflict callbacks that call the library

In `Model/Daemon` a conflict callback only takes note.  Here it may make calls itself, as a program does that publishes
its records under another name right away.  Functions that are not repeated here call no conflict callbacks.
-/

namespace Mdns

open M

variable {Q : Type} [QOps Q]

/-- What conflict callbacks do: given the name and type they are called with and all that has happened so far (the state), the calls they make one
after the other; each may depend on the state by then, such as the record a call before returned.  `libmdnsd/mdnsd.h:217-222`. -/
abbrev Reaction := Bytes → Nat → Core → List (Core → Op)

/-- The calls of a callback, inside of `libmdnsd/mdnsd.c:497`. -/
def reactWith (env : Env) : List (Core → Op) → M Q Unit
  | [] => pure ()
  | f :: fs => do
    let c ← core
    let _ ← step env (f c)
    reactWith env fs

/-- `_conflict`, `libmdnsd/mdnsd.c:495-499`: `mdnsd_done` is called whatever the callback did. -/
def conflictR (env : Env) (p : Reaction) (r : Nat) : M Q Unit := do
  let x ← getRec r
  match x.conflict with
  | none => ub
  | some _ => do
    modC fun c => { c with log := c.log ++ [Event.conflict r x.rr.name x.rr.type] }
    let c ← core
    reactWith env (p x.rr.name x.rr.type c)
    done r

/-- The conflict check for a record being probed, `libmdnsd/mdnsd.c:1162-1179`: gives `did_addr_refresh` and whether there was a conflict. -/
def probeConflictR (env : Env) (p : Reaction) (src : Addr) (q : Question) (r : Nat) : List Resource → Bool → M Q (Bool × Bool)
  | [], did => pure (did, false)
  | a :: rest, did =>
    if answers q a then do
      let x ← getRec r
      if aMatch a x.rr then probeConflictR env p src q r rest did
      else do
        if !did then modC (refreshLocals env true)
        if ← isLocal env src then probeConflictR env p src q r rest true
        else do
          conflictR env p r
          pure (true, true)
    else probeConflictR env p src q r rest did

/-- The loop over the records that may answer a question, `libmdnsd/mdnsd.c:1153-1201`: gives `did_addr_refresh` and `has_conflict`.  `next` is
fetched before the callback is called. -/
def answerLoopR (env : Env) (p : Reaction) (src : Addr) (q : Question) (an : List Resource) : Nat → Option Nat → Bool → Bool → M Q (Bool × Bool)
  | _, none, did, conf => pure (did, conf)
  | 0, some _, _, _ => hang
  | fuel + 1, some r, did, conf => do
    let x ← getRec r
    let next ← rNext r q.name q.type
    if x.unique ≠ 0 ∧ x.unique < 5 ∧ ¬ x.modified then do
      let (did, cf) ← probeConflictR env p src q r an did
      answerLoopR env p src q an fuel next did (conf || cf)
    else do
      let known ← knownAnswer q r an
      if !known then rSend r
      answerLoopR env p src q an fuel next did conf

/-- One question, `libmdnsd/mdnsd.c:1128-1206`: gives `did_addr_refresh`. -/
def inQuestionR (env : Env) (p : Reaction) (m : Msg) (src : Addr) (q : Question) (did : Bool) : M Q Bool := do
  let c ← core
  if q.cls ≠ c.cls then pure did
  else do
    let r ← rFirst q.name q.type
    match r with
    | none => pure did
    | some start => do
      let n ← qFuel
      if q.name = discoName then do
        modC fun c => { c with disco := true }
        discoLoop q n (some start)
        pure did
      else do
        let (did, conf) ← answerLoopR env p src q m.an n (some start) did false
        if ¬ conf ∧ src.port ≠ 5353 then uPush start m.id src
        pure did

/-- The loop over the questions.  `libmdnsd/mdnsd.c:1126-1209`. -/
def inQuestionsR (env : Env) (p : Reaction) (m : Msg) (src : Addr) : List Question → Bool → M Q Unit
  | [], _ => pure ()
  | q :: rest, did => do
    let did ← inQuestionR env p m src q did
    inQuestionsR env p m src rest did

/-- One answer, `libmdnsd/mdnsd.c:1212-1242`: gives `did_addr_refresh`. -/
def inAnswerR (env : Env) (p : Reaction) (src : Addr) (a : Resource) (did : Bool) : M Q Bool := do
  let r ← rFirst a.name a.type
  let bad ← match r with
    | none => pure none
    | some r => do
      let x ← getRec r
      pure (if x.unique ≠ 0 ∧ x.modified ∧ aMatch a x.rr then some r else none)
  match bad with
  | none => do
    inAnswer.rest env src a
    pure did
  | some r => do
    if !did then modC (refreshLocals env true)
    if ← isLocal env src then pure true
    else do
      conflictR env p r
      inAnswer.rest env src a
      pure true

/-- The loop over the answers.  `libmdnsd/mdnsd.c:1211-1244`. -/
def inAnswersR (env : Env) (p : Reaction) (src : Addr) : List Resource → Bool → M Q Unit
  | [], _ => pure ()
  | a :: rest, did => do
    let did ← inAnswerR env p src a did
    inAnswersR env p src rest did

/-- `mdnsd_in`, `libmdnsd/mdnsd.c:1111-1245`. -/
def inMsgR (env : Env) (p : Reaction) (now : TV) (m : Msg) (src : Addr) : M Q Nat := do
  let c ← core
  if c.shutdown then pure 1
  else do
    modC fun c => { c with now := now }
    if ← isLocal env src then pure 0
    else if !m.header.qr then do
      inQuestionsR env p m src m.qd false
      pure 0
    else do
      inAnswersR env p src m.an false
      pure 0

/-- One call; no other function calls conflict callbacks.  `libmdnsd/mdnsd.c:937-1834`. -/
def stepR (env : Env) (p : Reaction) : Op → M Q OpOut
  | .recv now m src => do let _ ← inMsgR env p now m src; pure .unit
  | o => step env o

end Mdns
