import Verif.Model.Process

/-!
# The list of interfaces, with its pointers

`src/addr.c` keeps the interfaces in a tail queue of `src/queue.h` and walks over it with an iterator that has a static
variable.  This is `Model/Process` again, where the table of interfaces is not a list but cells in memory.
-/

namespace Mdns.Tailq

open Mdns.Proc
open Mdns.Iface (Iface Ifa)

/-- What `tqe_prev` and `tqh_last` point to: the `tqh_first` of the head, or the `tqe_next` of a cell.
`src/queue.h:407-420`. -/
inductive Loc where
  | head
  | cell (n : Nat)
deriving Repr, DecidableEq

/-- `struct iface`, `src/mdnsd.h:58-76`, with its link. -/
structure Cell where
  slot : Slot
  next : Option Nat
  prev : Loc

/-- The memory: the cells, `iface_list` (`src/addr.c:46`) and the static variable of the iterator (`src/addr.c:50`).
`fresh` numbers the cells; no number is used twice, so that a freed cell is not mistaken for another one. -/
structure Heap where
  cell : Nat → Option Cell := fun _ => none
  first : Option Nat := none
  last : Loc := .head
  nxt : Option Nat := none
  fresh : Nat := 0

/-- Code that uses the memory and the system.  Not in the code, for `src/addr.c:46-237`. -/
def P (α : Type) := Heap → M (α × Heap)

/-- Sequences; not in the code, for `src/addr.c:46-237`. -/
instance : Monad P where
  pure a := fun h => pure (a, h)
  bind m f := fun h => m h >>= fun r => f r.1 r.2

/-- Code that does not use the cells.  `src/mdnsd.c:141-490`. -/
def lift {α : Type} (m : M α) : P α := fun h => m >>= fun a => pure (a, h)

/-- Undefined behaviour: a cell that was freed is used.  Also a loop that visits more cells than there have been.
`src/addr.c:46-237`. -/
def bad {α : Type} : P α := fun _ _ => .ub

/-- A cell is read.  `src/addr.c:46-237`. -/
def load (n : Nat) : P Cell := fun h => match h.cell n with
  | some c => pure (c, h)
  | none => bad h

/-- A cell is changed.  `src/addr.c:46-237`. -/
def change (n : Nat) (f : Cell → Cell) : P Unit := fun h => match h.cell n with
  | some c => pure ((), { h with cell := fun m => if m = n then some (f c) else h.cell m })
  | none => bad h

/-- The memory outside of the cells is changed.  `src/addr.c:46-63`. -/
def modify (f : Heap → Heap) : P Unit := fun h => pure ((), f h)

/-- The memory is looked at.  `src/addr.c:46-63`. -/
def peek {α : Type} (f : Heap → α) : P α := fun h => pure (f h, h)

/-- `*loc = v`.  `src/queue.h:480`, `507`. -/
def setLoc (l : Loc) (v : Option Nat) : P Unit := match l with
  | .head => modify fun h => { h with first := v }
  | .cell n => change n fun c => { c with next := v }

/-- `TAILQ_INSERT_TAIL`, `src/queue.h:477-482`. -/
def insertTail (n : Nat) : P Unit := do
  change n fun c => { c with next := none }
  let l ← peek (·.last)
  change n fun c => { c with prev := l }
  let l ← peek (·.last)
  setLoc l (some n)
  modify fun h => { h with last := .cell n }

/-- What is behind a cell gets another predecessor, `src/queue.h:502-506`. -/
def setPrev (m : Option Nat) (l : Loc) : P Unit := match m with
  | some m => change m fun d => { d with prev := l }
  | none => modify fun h => { h with last := l }

/-- `TAILQ_REMOVE`, `src/queue.h:501-510`; `_Q_INVALIDATE` does nothing (`src/queue.h:82-86`). -/
def remove (n : Nat) : P Unit := do
  let c ← load n
  setPrev c.next c.prev
  let c ← load n
  setLoc c.prev c.next

/-- `calloc`, `src/addr.c:178`.  The link is set by `insertTail` before it is read. -/
def alloc (x : Slot) : P Nat := fun h =>
  pure (h.fresh, { h with cell := fun m => if m = h.fresh then some ⟨x, none, .head⟩ else h.cell m, fresh := h.fresh + 1 })

/-- `free`, `src/addr.c:85`, `234`. -/
def release (n : Nat) : P Unit := fun h => match h.cell n with
  | some _ => pure ((), { h with cell := fun m => if m = n then none else h.cell m })
  | none => bad h

/-- `iface_free`, `src/addr.c:79-86`. -/
def ifaceFree (n : Nat) : P Unit := do
  remove n
  release n

/-- `iface_iterator`, `src/addr.c:48-63`. -/
def iter (first : Bool) : P (Option Nat) := do
  let i ← peek fun h => if first then h.first else h.nxt
  match i with
  | some n => do
    let c ← load n
    modify fun h => { h with nxt := c.next }
    pure i
  | none => pure i

/-- The work for one interface, which may end with `iface_free`.  Between its beginning and its end nobody else looks at
the cell.  `src/mdnsd.c:141-216`, `244-245`, `399-413`, `425-432`, `449-479`. -/
def body (f : Slot → M (Option Slot)) (n : Nat) : P Unit := do
  let c ← load n
  match ← lift (f c.slot) with
  | some x => change n fun c => { c with slot := x }
  | none => ifaceFree n

/-- `for (..; iface; iface = iface_iterator(0))`, `src/mdnsd.c:399`; the number bounds the rounds. -/
def walk (f : Slot → M (Option Slot)) : Nat → Option Nat → P Unit
  | 0, _ => bad
  | _ + 1, none => pure ()
  | k + 1, some n => do
    body f n
    let c ← iter false
    walk f k c

/-- `for (iface = iface_iterator(1); iface; iface = iface_iterator(0))`, `src/mdnsd.c:244`, `399`, `425`, `449`, `484`,
`src/addr.c:92`, `106`. -/
def forIfaces (f : Slot → M (Option Slot)) : P Unit := do
  let c ← iter true
  let k ← peek (·.fresh)
  walk f (k + 1) c

/-- The loop of `iface_find`, `src/addr.c:69-74`. -/
def findLoop (name : Bytes) : Nat → Option Nat → P (Option Nat)
  | 0, _ => bad
  | _ + 1, none => pure none
  | k + 1, some n => do
    let c ← load n
    if c.slot.i.name == name then pure (some n)
    else do
      let c ← iter false
      findLoop name k c

/-- `iface_find`, `src/addr.c:65-77`. -/
def find (name : Bytes) : P (Option Nat) := do
  let c ← iter true
  let k ← peek (·.fresh)
  findLoop name (k + 1) c

/-- `src/addr.c:173-174`. -/
def known (iface : Option Nat) (name : Bytes) : P (Option Nat) := match iface with
  | some n => pure (some n)
  | none => find name

/-- `src/addr.c:176-194`. -/
def secure (p : Option Nat) (name : Bytes) : P Nat := match p with
  | none => do
    let n ← alloc { i := { name := [] } }
    insertTail n
    change n fun c => { c with slot := { c.slot with i := { c.slot.i with name := name } } }
    pure n
  | some n => do
    change n fun c => { c with slot := { c.slot with i := { c.slot.i with unused := false } } }
    pure n

/-- The body of the loop of `iface_init`, `src/addr.c:138-222`.  `iface` is the variable of that name, which is kept from
one round to the next if the program was given an interface; names are shorter than `IFNAMSIZ`, memory allocation does
not fail. -/
def visit (ifname : Option Bytes) (iface : Option Nat) (e : Ifa) : P (Option Nat) :=
  match Iface.usable ifname e with
  | none => pure iface
  | some a => do
    let p ← known iface e.name
    let n ← secure p e.name
    change n fun c => { c with slot := { c.slot with i := Iface.take c.slot.i a } }
    pure (if ifname.isSome then some n else none)

/-- The loop of `iface_init`, `src/addr.c:138-222`. -/
def visits (ifname : Option Bytes) : Option Nat → List Ifa → P Unit
  | _, [] => pure ()
  | i, e :: l => do
    let i ← visit ifname i e
    visits ifname i l

/-- `iface_init`, `src/addr.c:124-226`; `none` if `getifaddrs` fails. -/
def scan (ifname : Option Bytes) (l : Option (List Ifa)) : P Unit :=
  match l with
  | none => pure ()
  | some l => do
    forIfaces fun x => pure (some { x with i := Iface.mark1 x.i })
    visits ifname none l
    forIfaces fun x => pure (some { x with i := Iface.sweep1 x.i })

/-- `sys_init`, `src/mdnsd.c:237-246`. -/
def sysInit (ifname : Option Bytes) (e : Env) (l : Option (List Ifa)) : P Unit := do
  scan ifname l
  forIfaces (setupIface e)

/-- The descriptors `select` waits for, `src/mdnsd.c:393-413`. -/
def waitFor (nl : Option Nat) : P Unit := do
  lift (whenSome nl fdSet)
  forIfaces fun x => do
    if x.sd.isNone || x.i.unused then pure (some x)
    else do
      whenSome x.sd fdSet
      whenSome x.sd6 fdSet
      pure (some x)

/-- The calls of `sys_init` in a round.  `src/mdnsd.c:424`, `442`, `446`. -/
def scans (ifname : Option Bytes) : List (Env × Option (List Ifa)) → P Unit
  | [] => pure ()
  | (e, l) :: r => do
    sysInit ifname e l
    scans ifname r

/-- `src/mdnsd.c:390-481`; `nl` is the netlink socket. -/
def round (ifname : Option Bytes) (nl : Option Nat) (ev : Ev) : P Unit := do
  waitFor nl
  match ev with
  | .interrupted => pure ()
  | .reload e l => do
    sysInit ifname e l
    forIfaces reread
  | .work sc ok4 ok6 => do
    lift (whenSome nl useFd)
    scans ifname sc
    forIfaces (serve ok4 ok6)

/-- The rounds of the main loop, `src/mdnsd.c:390-481`. -/
def rounds (ifname : Option Bytes) (nl : Option Nat) : List Ev → P Unit
  | [] => pure ()
  | ev :: r => do
    round ifname nl ev
    rounds ifname nl r

/-- The loop of `iface_exit`, `src/addr.c:232-235`; `TAILQ_FOREACH_SAFE` is `src/queue.h:441-445`. -/
def exitLoop : Nat → Option Nat → P Unit
  | 0, _ => bad
  | _ + 1, none => pure ()
  | k + 1, some n => do
    let c ← load n
    remove n
    release n
    exitLoop k c.next

/-- `iface_exit`, `src/addr.c:228-236`. -/
def ifaceExit : P Unit := do
  let c ← peek (·.first)
  let k ← peek (·.fresh)
  exitLoop (k + 1) c

/-- `main`.  `src/mdnsd.c:384-490`. -/
def main (ifname : Option Bytes) (e : Env) (l : Option (List Ifa)) (nlSock : Sock) (evs : List Ev) : P Unit := do
  sysInit ifname e l
  let nl ← lift (socket e nlSock)
  rounds ifname nl evs
  forIfaces fun x => do freeIface x; pure none
  ifaceExit
  lift (whenSome nl close)

end Mdns.Tailq
