import Verif.Model.Alloc

/-!
# Questions from other ports when memory runs out, `libmdnsd/mdnsd.c`

`_u_push` gets no memory.  Together with `Model/Alloc` this is every allocation of `mdnsd_in`.
-/

namespace Mdns

open M

variable {Q : Type} [QOps Q]

/-- `_u_push`, `libmdnsd/mdnsd.c:339-352`; without memory it returns, `:344-345`. -/
def uPushF (mem : Bool) (r id : Nat) (to : Addr) : M Q Unit := if mem then uPush r id to else pure ()

/-- One question, `libmdnsd/mdnsd.c:1128-1206`. -/
def inQuestionU (env : Env) (m : Msg) (src : Addr) (mem : Bool) (q : Question) (did : Bool) : M Q Bool := do
  let c ← core
  if q.cls ≠ c.cls then pure did
  else do
    let r ← rFirst q.name q.type
    match r with
    | none => pure did
    | some start => do
      let n ← qFuel
      if q.name = discoName then do
        modC fun c => { c with disco := true }
        discoLoop q n (some start)
        pure did
      else do
        let (did, conf) ← answerLoop env src q m.an n (some start) did false
        if ¬ conf ∧ src.port ≠ 5353 then uPushF mem start m.id src
        pure did

/-- The loop over the questions; `mem k` is about question `k`.  `libmdnsd/mdnsd.c:1126-1209`. -/
def inQuestionsU (env : Env) (m : Msg) (src : Addr) (mem : Nat → Bool) : Nat → List Question → Bool → M Q Unit
  | _, [], _ => pure ()
  | k, q :: rest, did => do
    let did ← inQuestionU env m src (mem k) q did
    inQuestionsU env m src mem (k + 1) rest did

/-- `mdnsd_in`, `libmdnsd/mdnsd.c:1111-1245`; answers get the memory they need (`inMsgA` is without). -/
def inMsgU (env : Env) (now : TV) (m : Msg) (src : Addr) (mem : Nat → Bool) : M Q Nat := do
  let c ← core
  if c.shutdown then pure 1
  else do
    modC fun c => { c with now := now }
    if ← isLocal env src then pure 0
    else if !m.header.qr then do
      inQuestionsU env m src mem 0 m.qd false
      pure 0
    else do
      inAnswers env src m.an false
      pure 0

end Mdns
