import Verif.Model.Process

/-!
# What `mdnsd` waits for, `src/mdnsd.c:391-419`

The set of descriptors and the number handed to `select`, and what `select` makes of them.  Descriptors are below
`FD_SETSIZE` (see C70).
-/

namespace Mdns.Proc

/-- `fds` and `nfds`, `src/mdnsd.c:391-419`. -/
structure Waits where
  fds : List Nat := []
  nfds : Nat := 0
deriving Repr, DecidableEq

/-- `FD_SET(fd, &fds); if (fd > nfds) nfds = fd`, `src/mdnsd.c:395-397`, `403-405`, `408-410`. -/
def Waits.add (w : Waits) (fd : Nat) : Waits := { fds := fd :: w.fds, nfds := if fd > w.nfds then fd else w.nfds }

/-- The same for a descriptor that may be -1, `src/mdnsd.c:394`, `407`. -/
def Waits.addSome (w : Waits) : Option Nat → Waits
  | none => w
  | some fd => w.add fd

/-- The loop over the interfaces, `src/mdnsd.c:399-413`. -/
def Waits.iface (w : Waits) (x : Slot) : Waits :=
  match x.sd with
  | none => w
  | some fd => if x.i.unused then w else (w.add fd).addSome x.sd6

/-- `src/mdnsd.c:391-416`; `nl` is the netlink socket. -/
def collect (nl : Option Nat) (t : List Slot) : Waits :=
  let w := t.foldl Waits.iface (({} : Waits).addSome nl)
  { w with nfds := if w.nfds > 0 then w.nfds + 1 else w.nfds }

/-- Whether `select` returns before the time is over: it looks at the descriptors of the set that are below `nfds`.
`ready` tells which can be read.  `src/mdnsd.c:419`. -/
def Waits.wakes (w : Waits) (ready : Nat → Bool) : Bool := w.fds.any fun fd => decide (fd < w.nfds) && ready fd

/-- `FD_ISSET` after `select`: below `nfds` those that can be read; what becomes of the others (`rest`) is left open by
POSIX.  `src/mdnsd.c:440`, `456`, `471`. -/
def Waits.isSet (w : Waits) (ready rest : Nat → Bool) (fd : Nat) : Bool :=
  if fd < w.nfds then w.fds.contains fd && ready fd else rest fd

end Mdns.Proc
