import Verif.Model.DaemonTypes

/-!
# The four intrusive record queues of `libmdnsd/mdnsd.c`

A record has one link field `list` (`libmdnsd/mdnsd.c:93`), shared by the queues
`probing`, `a_now`, `a_pause` and `a_publish` (`:102`).  `Ptrs` represents heads
and links as they are in memory; every access to the link of a freed record is
undefined behaviour.  `Lists` represents the queues as four separate lists; its
operations are only defined where the queues stay separate.  The daemon is
written once for both (`QOps`); `Lemmas/Queues` proves that whatever happens with
`Lists` happens with `Ptrs` too.
-/

namespace Mdns

/-- The queues.  `libmdnsd/mdnsd.c:102`. -/
inductive W where
  | probing | now | pause | publish
deriving DecidableEq, Repr

/-- What the daemon does with the queues.  `libmdnsd/mdnsd.c:244-292`, `772-817`. -/
class QOps (Q : Type) where
  /-- bound for walks along a queue -/
  fuel : Q → Nat
  /-- a new record -/
  alloc : Q → Nat × Q
  /-- free a record -/
  free : Nat → Q → Res Q
  /-- first record of a queue -/
  head : W → Q → Option Nat
  /-- `r->list`, for a record in the given queue -/
  next : W → Nat → Q → Res (Option Nat)
  /-- `_r_push` -/
  push : W → Nat → Q → Res Q
  /-- `_r_remove_lists` -/
  removeLists : Nat → Option W → Q → Res Q
  /-- advance the head, `libmdnsd/mdnsd.c:778-781` -/
  pop : W → Q → Res Q
  /-- unlink in the publish loop, `libmdnsd/mdnsd.c:1321-1325`: record, predecessor, successor -/
  unlinkPublish : Nat → Option Nat → Option Nat → Q → Res Q
  /-- unlink in the probe loop, `libmdnsd/mdnsd.c:1363-1370`: record, predecessor -/
  unlinkProbing : Nat → Option Nat → Q → Res Q
  /-- unlink in `mdnsd_done`, `libmdnsd/mdnsd.c:1678-1684` -/
  zapProbing : Nat → Q → Res Q
  /-- link in front of `a_now` without a check, `libmdnsd/mdnsd.c:959-960`, `:995-996`, `:1028-1029` -/
  linkNow : Nat → Q → Res Q
  /-- `d->a_now = 0`, `libmdnsd/mdnsd.c:1023` -/
  clearNow : Q → Res Q

/-! ### Heads and links -/

/-- Heads and links in memory.  `link r` is `none` if record `r` is not allocated,
else the value of `r->list`.  Ids below `size` have been used.  `libmdnsd/mdnsd.c:93`, `102`. -/
structure Ptrs where
  head : W → Option Nat := fun _ => none
  link : Nat → Option (Option Nat) := fun _ => none
  size : Nat := 0

namespace Ptrs

/-- Read `r->list`.  `libmdnsd/mdnsd.c:249`, `254`, `285`. -/
def rd (p : Ptrs) (r : Nat) : Res (Option Nat) :=
  match p.link r with
  | some x => .ok x
  | none => .ub

/-- Write `r->list`.  `libmdnsd/mdnsd.c:250`, `256`, `290`. -/
def wr (p : Ptrs) (r : Nat) (x : Option Nat) : Res Ptrs :=
  match p.link r with
  | some _ => .ok { p with link := upd p.link r (some x) }
  | none => .ub

/-- Assignment to the head of a queue, `libmdnsd/mdnsd.c:249`, `291`. -/
def setHead (p : Ptrs) (w : W) (x : Option Nat) : Ptrs :=
  { p with head := fun v => if v = w then x else p.head v }

/-- The loop of `_r_remove_list`, `libmdnsd/mdnsd.c:254-262`. -/
def removeWalk (p : Ptrs) (r : Nat) : Nat → Option Nat → Res Ptrs
  | _, none => .ok p
  | 0, some _ => .hang
  | n + 1, some tmp => do
    let x ← p.rd tmp
    if x = some r then
      let y ← p.rd r
      let p ← p.wr tmp y
      p.wr r none
    else if x = some tmp then .ok p
    else removeWalk p r n x

/-- `_r_remove_list`, `libmdnsd/mdnsd.c:244-263`. -/
def removeList (p : Ptrs) (w : W) (r : Nat) : Res Ptrs :=
  if p.head w = some r then do
    let x ← p.rd r
    (p.setHead w x).wr r none
  else removeWalk p r p.size (p.head w)

/-- One `if` of `_r_remove_lists`, `libmdnsd/mdnsd.c:267-268` and following. -/
def removeUnless (p : Ptrs) (w : W) (r : Nat) (skip : Option W) : Res Ptrs :=
  if p.head w ≠ none ∧ skip ≠ some w then p.removeList w r else .ok p

/-- `_r_remove_lists`, `libmdnsd/mdnsd.c:265-278`. -/
def removeLists (r : Nat) (skip : Option W) (p : Ptrs) : Res Ptrs := do
  let p ← p.removeUnless .probing r skip
  let p ← p.removeUnless .now r skip
  let p ← p.removeUnless .pause r skip
  p.removeUnless .publish r skip

/-- The search loop of `_r_push`, `libmdnsd/mdnsd.c:285-288`. -/
def onList (p : Ptrs) (r : Nat) : Nat → Option Nat → Res Bool
  | _, none => .ok false
  | 0, some _ => .hang
  | n + 1, some cur =>
    if cur = r then .ok true
    else do
      let x ← p.rd cur
      onList p r n x

/-- `_r_push`, `libmdnsd/mdnsd.c:281-292`. -/
def push (w : W) (r : Nat) (p : Ptrs) : Res Ptrs := do
  if ← p.onList r p.size (p.head w) then .ok p
  else do
    let p ← p.wr r (p.head w)
    .ok (p.setHead w (some r))

/-- `libmdnsd/mdnsd.c:778-781`: `*list` becomes `r->list`, or NULL if the record
links to itself. -/
def pop (w : W) (p : Ptrs) : Res Ptrs :=
  match p.head w with
  | none => .ub
  | some r => do
    let x ← p.rd r
    .ok (p.setHead w (if x = some r then none else x))

/-- `libmdnsd/mdnsd.c:1321-1325`. -/
def unlinkPublish (r : Nat) (last next : Option Nat) (p : Ptrs) : Res Ptrs := do
  let p ← p.wr r none
  let p := if p.head .publish = some r then p.setHead .publish next else p
  match last with
  | none => .ok p
  | some l => p.wr l next

/-- `libmdnsd/mdnsd.c:1365-1370`. -/
def unlinkProbing (r : Nat) (last : Option Nat) (p : Ptrs) : Res Ptrs := do
  let x ← p.rd r
  let p ← unlinkAt p x
  p.wr r none
where
  /-- `libmdnsd/mdnsd.c:1365-1368` -/
  unlinkAt (p : Ptrs) (x : Option Nat) : Res Ptrs :=
    if p.head .probing = some r then .ok (p.setHead .probing x)
    else match last with
      | none => .ok p
      | some l => p.wr l x

/-- The loop of `mdnsd_done`, `libmdnsd/mdnsd.c:1681-1683`: no check for the end. -/
def zapWalk (p : Ptrs) (r : Nat) : Nat → Option Nat → Res Ptrs
  | _, none => .ub
  | 0, some _ => .hang
  | n + 1, some cur => do
    let x ← p.rd cur
    if x = some r then
      let y ← p.rd r
      p.wr cur y
    else zapWalk p r n x

/-- `libmdnsd/mdnsd.c:1678-1684`. -/
def zapProbing (r : Nat) (p : Ptrs) : Res Ptrs :=
  if p.head .probing = some r then do
    let x ← p.rd r
    .ok (p.setHead .probing x)
  else zapWalk p r p.size (p.head .probing)

/-- `libmdnsd/mdnsd.c:959-960`, `:995-996`, `:1028-1029`. -/
def linkNow (r : Nat) (p : Ptrs) : Res Ptrs := do
  let p ← p.wr r (p.head .now)
  .ok (p.setHead .now (some r))

/-- The operations, as cited where they are defined (`libmdnsd/mdnsd.c:244-292` and others). -/
instance : QOps Ptrs where
  fuel p := p.size
  alloc p := (p.size, { p with link := upd p.link p.size (some none), size := p.size + 1 })
  free r p := match p.link r with
    | some _ => .ok { p with link := upd p.link r none }
    | none => .ub
  head w p := p.head w
  next _ r p := p.rd r
  push := push
  removeLists := removeLists
  pop := pop
  unlinkPublish := unlinkPublish
  unlinkProbing := unlinkProbing
  zapProbing := zapProbing
  linkNow := linkNow
  clearNow p := .ok (p.setHead .now none)

end Ptrs

/-! ### Four lists -/

/-- The queues as lists.  `live r`: record `r` is allocated.  Not in the code: what heads and links of `libmdnsd/mdnsd.c:93`, `102` stand for. -/
structure Lists where
  q : W → List Nat := fun _ => []
  live : Nat → Bool := fun _ => false
  size : Nat := 0

namespace Lists

/-- Not in the code: another list for a queue of `libmdnsd/mdnsd.c:102`. -/
def set (l : Lists) (w : W) (x : List Nat) : Lists :=
  { l with q := fun v => if v = w then x else l.q v }

/-- The element behind `r`.  Not in the code: `r->list` of `libmdnsd/mdnsd.c:93`. -/
def succ (r : Nat) : List Nat → Option Nat
  | [] => none
  | x :: xs => if x = r then xs.head? else succ r xs

/-- The element before `r`.  Not in the code: what the loop `libmdnsd/mdnsd.c:254-262` looks for. -/
def pred (r : Nat) : List Nat → Option Nat
  | [] => none
  | x :: xs => if xs.head? = some r then some x else pred r xs

/-- `r` is in a queue other than `w`.  Not in the code: for `libmdnsd/mdnsd.c:265-278`. -/
def elsewhere (l : Lists) (w : W) (r : Nat) : Bool :=
  [W.probing, .now, .pause, .publish].any fun v => v != w && (l.q v).contains r

/-- Not in the code: in one of the queues of `libmdnsd/mdnsd.c:102`. -/
def queued (l : Lists) (r : Nat) : Bool :=
  [W.probing, .now, .pause, .publish].any fun v => (l.q v).contains r

/-- The operations, as cited where they are defined (`libmdnsd/mdnsd.c:244-292` and others). -/
instance : QOps Lists where
  fuel l := l.size
  alloc l := (l.size, { l with
    live := fun i => if i = l.size then true else l.live i, size := l.size + 1 })
  free r l := if l.live r ∧ ¬ l.queued r then
      .ok { l with live := fun i => if i = r then false else l.live i } else .ub
  head w l := (l.q w).head?
  next w r l := if (l.q w).contains r then .ok (succ r (l.q w)) else .ub
  push w r l := if l.live r ∧ ¬ l.elsewhere w r then
      .ok (if (l.q w).contains r then l else l.set w (r :: l.q w)) else .ub
  removeLists r skip l :=
      .ok { l with q := fun w => if skip = some w then l.q w else (l.q w).erase r }
  pop w l := match l.q w with
    | [] => .ub
    | _ :: rest => .ok (l.set w rest)
  unlinkPublish r last next l :=
    if (l.q .publish).contains r ∧ pred r (l.q .publish) = last ∧ succ r (l.q .publish) = next then
      .ok (l.set .publish ((l.q .publish).erase r)) else .ub
  unlinkProbing r last l :=
    if (l.q .probing).contains r ∧ pred r (l.q .probing) = last then
      .ok (l.set .probing ((l.q .probing).erase r)) else .ub
  zapProbing r l := if (l.q .probing).contains r then
      .ok (l.set .probing ((l.q .probing).erase r)) else .ub
  linkNow r l := if l.live r ∧ ¬ l.queued r then .ok (l.set .now (r :: l.q .now)) else .ub
  clearNow l := .ok (l.set .now [])

end Lists

end Mdns
