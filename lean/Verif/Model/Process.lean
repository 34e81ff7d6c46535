import Verif.Model.Iface

/-!
# Descriptors and contexts of the daemon `mdnsd`

`src/mdnsd.c`, `src/mcsock.c`, `src/netlink.c`, with the table of interfaces of `Model/Iface`.  The system is an
unknown: which descriptor numbers it gives, and which calls fail.  What a context does with its packets is not part of
this model (it is that of `Model/Daemon`), only whether the context and the descriptor it is called with exist.
-/

namespace Mdns.Proc

open Mdns.Iface (Iface Ifa)

/-- `struct iface`, `src/mdnsd.h:58-76`, with sockets (-1 is `none`) and contexts (NULL is `none`). -/
structure Slot where
  i : Iface
  sd : Option Nat := none
  sd6 : Option Nat := none
  mdns : Option Nat := none
  mdns6 : Option Nat := none
deriving Repr, DecidableEq

/-- What the system has for the process: the open descriptors, and the allocated contexts.  `next` numbers the contexts;
no number is used twice, so that a freed context is not mistaken for another one.  `src/mdnsd.c:141-216`. -/
structure Sys where
  fds : List Nat := []
  ctxs : List Nat := []
  next : Nat := 0
deriving Repr, DecidableEq

/-- How a piece of code ends: with a value; with `exit(1)`; with undefined behaviour: a context that is NULL or was freed
is used, a descriptor that is not open is used or closed; or with `FD_SET` or `FD_ISSET` of a descriptor not below `FD_SETSIZE`.  `src/mdnsd.c:141-490`. -/
inductive R (α : Type) where
  | ok (a : α) (s : Sys)
  | exit (s : Sys)
  | ub
  | large
deriving Repr, DecidableEq

/-- Code that uses the system.  Not in the code, for `src/mdnsd.c:141-490`. -/
def M (α : Type) := Sys → R α

/-- Sequences; not in the code, for `src/mdnsd.c:141-490`. -/
instance : Monad M where
  pure a := fun s => .ok a s
  bind m f := fun s =>
    match m s with
    | .ok a s => f a s
    | .exit s => .exit s
    | .ub => .ub
    | .large => .large

/-- `exit(1)`, `src/mdnsd.c:180`, `189`, `202`. -/
def exit1 {α : Type} : M α := fun s => .exit s

/-- `close`.  `src/mdnsd.c:150`, `160`, `474`. -/
def close (fd : Nat) : M Unit := fun s => if fd ∈ s.fds then .ok () { s with fds := s.fds.erase fd } else .ub

/-- A descriptor is used: `sendto`, `recvfrom`, `setsockopt`, `bind`, `recv`.  `libmdnsd/mdnsd.c:1919-1967`, `src/mcsock.c:70-260`, `src/netlink.c:80-120`. -/
def useFd (fd : Nat) : M Unit := fun s => if fd ∈ s.fds then .ok () s else .ub

/-- `FD_SET` for a descriptor `select` waits for, and `FD_ISSET` afterwards; `FD_SETSIZE` is 1024.  `src/mdnsd.c:395`, `403`, `408`, `440`, `456`, `471`. -/
def fdSet (fd : Nat) : M Unit := fun s => if ¬ fd ∈ s.fds then .ub else if fd < 1024 then .ok () s else .large

/-- A context is used; NULL is not accepted.  `src/mdnsd.c:143-147`, `182`, `426`, `456`. -/
def useCtx : Option Nat → M Unit
  | none => fun _ => .ub
  | some c => fun s => if c ∈ s.ctxs then .ok () s else .ub

/-- `mdnsd_shutdown`, `libmdnsd/mdnsd.c:1015-1035`: nothing for NULL. -/
def shutdown : Option Nat → M Unit
  | none => pure ()
  | some c => useCtx (some c)

/-- `mdnsd_free`, `libmdnsd/mdnsd.c:1047-1109`: nothing for NULL. -/
def free : Option Nat → M Unit
  | none => pure ()
  | some c => fun s => if c ∈ s.ctxs then .ok () { s with ctxs := s.ctxs.erase c } else .ub

/-- `mdnsd_step`, `libmdnsd/mdnsd.c:1969-1990`. -/
def step (c : Option Nat) (fd : Nat) : M Unit := do
  useCtx c
  useFd fd

/-- How the creation of a socket goes: `socket` fails, or `bind` does, or none.  `src/mcsock.c:70-260`. -/
inductive Sock where
  | none
  | unbound
  | bound
deriving Repr, DecidableEq

/-- What the system does while interfaces are set up: the number of the next descriptor, given the open ones; how
creating the sockets of an interface goes, by name; and whether there is memory for its contexts.  `src/mdnsd.c:166-216`. -/
structure Env where
  fd : List Nat → Nat
  sock4 : Bytes → Sock := fun _ => .bound
  sock6 : Bytes → Sock := fun _ => .bound
  mem4 : Bytes → Bool := fun _ => true
  mem6 : Bytes → Bool := fun _ => true

/-- The system never gives a descriptor that is open.  `src/mcsock.c:70-260`. -/
def Env.Fresh (e : Env) : Prop := ∀ l, e.fd l ∉ l

/-- `mc_socket` and `mc_socket6`, `src/mcsock.c:70-173`, `:186-251`, and `netlink_init`, `src/netlink.c:50-70`, which is
the same in this respect.  Failing options are only logged. -/
def socket (e : Env) (r : Sock) : M (Option Nat) :=
  match r with
  | .none => pure none
  | .unbound => do
    let fd ← opened e
    useFd fd
    close fd
    pure none
  | .bound => do
    let fd ← opened e
    useFd fd
    pure (some fd)
where
  /-- `socket` of the system. -/
  opened (e : Env) : M Nat := fun s => .ok (e.fd s.fds) { s with fds := e.fd s.fds :: s.fds }

/-- `mdnsd_new`, `libmdnsd/mdnsd.c:917-935`; `none` if there is no memory. -/
def new (mem : Bool) : M (Option Nat) := fun s =>
  if mem then .ok (some s.next) { s with ctxs := s.next :: s.ctxs, next := s.next + 1 } else .ok none s

/-- `if (fd >= 0) f(fd)`.  `src/mdnsd.c:145`, `149`, `155`, `159`. -/
def whenSome (o : Option Nat) (f : Nat → M Unit) : M Unit :=
  match o with
  | none => pure ()
  | some n => f n

/-- `free_iface`, `src/mdnsd.c:140-164`; the caller takes the interface out of the table (`iface_free`). -/
def freeIface (x : Slot) : M Unit := do
  shutdown x.mdns
  whenSome x.sd (step x.mdns)
  free x.mdns
  whenSome x.sd close
  if x.mdns6.isSome then do
    shutdown x.mdns6
    whenSome x.sd6 (step x.mdns6)
    free x.mdns6
    whenSome x.sd6 close
  else pure ()

/-- `conf_init`, `src/conf.c:276-353`: here only that it works on the contexts, of which that for IPv6 may be missing.
(If there is no directory of service files, the code does not get as far as using them; here it always does.) -/
def confInit (x : Slot) : M Slot := do
  useCtx x.mdns
  if x.mdns6.isSome then useCtx x.mdns6 else pure ()
  pure { x with i := { x.i with conf := some (x.i.in4, x.i.in6) } }

/-- The context for IPv4, `src/mdnsd.c:176-183`. -/
def context4 (e : Env) (x : Slot) : M Slot :=
  if x.mdns.isSome then pure x
  else do
    match ← new (e.mem4 x.i.name) with
    | none => exit1
    | some c => pure { x with mdns := some c }

/-- The socket for IPv4, `src/mdnsd.c:185-191`. -/
def socket4 (e : Env) (x : Slot) : M Slot :=
  if x.sd.isSome then pure x
  else do
    match ← socket e (e.sock4 x.i.name) with
    | none => exit1
    | some fd => pure { x with sd := some fd }

/-- The socket for IPv6, `src/mdnsd.c:195-196`. -/
def socket6 (e : Env) (x : Slot) : M Slot :=
  if x.sd6.isSome then pure x
  else do
    let fd ← socket e (e.sock6 x.i.name)
    pure { x with sd6 := fd }

/-- The context for IPv6, `src/mdnsd.c:198-206`. -/
def context6 (e : Env) (x : Slot) : M Slot :=
  if x.sd6.isSome ∧ ¬ x.mdns6.isSome then do
    match ← new (e.mem6 x.i.name) with
    | none => exit1
    | some c => pure { x with mdns6 := some c }
  else pure x

/-- `setup_iface`, `src/mdnsd.c:166-216`; `none` if the interface is freed. -/
def setupIface (e : Env) (x : Slot) : M (Option Slot) :=
  if !x.i.changed then pure (some x)
  else if x.i.unused then do
    freeIface x
    pure none
  else do
    let x ← context4 e x
    let x ← socket4 e x
    let x ← socket6 e x
    let x ← context6 e x
    let x ← confInit x
    pure (some { x with i := { x.i with changed := false } })

/-- A loop with `iface_iterator`, `src/addr.c:47-63`, whose body may free the current interface: the iterator has taken
the next one before. -/
def forIfaces (f : Slot → M (Option Slot)) : List Slot → M (List Slot)
  | [] => pure []
  | x :: t => do
    let y ← f x
    let t ← forIfaces f t
    pure (y.toList ++ t)

/-- Changes the first interface of the given name.  `src/addr.c:65-77`. -/
def modify (f : Iface → Iface) (n : Bytes) : List Slot → List Slot
  | [] => []
  | x :: t => if x.i.name == n then { x with i := f x.i } :: t else x :: modify f n t

/-- The body of the loop of `iface_init`, `src/addr.c:138-222`, see `Iface.visit`; a new interface has no sockets and no
contexts (`src/addr.c:181-191`). -/
def visit (ifname : Option Bytes) (t : List Slot) (e : Ifa) : List Slot :=
  match Iface.usable ifname e with
  | none => t
  | some a =>
    match t.find? (·.i.name == e.name) with
    | none => t ++ [{ i := Iface.take { name := e.name } a }]
    | some _ => modify (fun i => Iface.take { i with unused := false } a) e.name t

/-- `iface_init`, `src/addr.c:124-226`; `none` if `getifaddrs` fails. -/
def scan (ifname : Option Bytes) (l : Option (List Ifa)) (t : List Slot) : List Slot :=
  match l with
  | none => t
  | some l => (l.foldl (visit ifname) (t.map fun x => { x with i := Iface.mark1 x.i })).map
      fun x => { x with i := Iface.sweep1 x.i }

/-- `sys_init`, `src/mdnsd.c:237-246`. -/
def sysInit (ifname : Option Bytes) (e : Env) (l : Option (List Ifa)) (t : List Slot) : M (List Slot) :=
  forIfaces (setupIface e) (scan ifname l t)

/-- The descriptors `select` waits for, `src/mdnsd.c:393-413`. -/
def waitFor (nl : Option Nat) (t : List Slot) : M Unit := do
  whenSome nl fdSet
  let _ ← forIfaces (fun x => do
    if x.sd.isNone || x.i.unused then pure (some x)
    else do
      whenSome x.sd fdSet
      whenSome x.sd6 fdSet
      pure (some x)) t

/-- What is done for one interface when the configuration is read again, `src/mdnsd.c:424-432`; `records_clear`
(`libmdnsd/mdnsd.c:1992-2007`) does not accept NULL. -/
def reread (x : Slot) : M (Option Slot) := do
  useCtx x.mdns
  if x.mdns6.isSome then useCtx x.mdns6 else pure ()
  let x ← confInit x
  pure (some x)

/-- The work for one interface, `src/mdnsd.c:448-479`; `ok4` and `ok6` tell whether `mdnsd_step` gives 0. -/
def serve (ok4 ok6 : Bytes → Bool) (x : Slot) : M (Option Slot) :=
  if x.i.unused then pure (some x)
  else
    match x.sd with
    | none => pure (some x)
    | some fd => do
      fdSet fd
      step x.mdns fd
      if !ok4 x.i.name then do
        freeIface x
        pure none
      else if x.mdns6.isSome then
        match x.sd6 with
        | none => pure (some x)
        | some fd6 => do
          fdSet fd6
          step x.mdns6 fd6
          if !ok6 x.i.name then do
            close fd6
            pure (some { x with sd6 := none })
          else pure (some x)
      else pure (some x)

/-- One round of the main loop, `src/mdnsd.c:390-481`. -/
inductive Ev where
  /-- `select` is interrupted, without a wish to read the configuration again -/
  | interrupted
  /-- the configuration is read again; `l` is what `getifaddrs` gives -/
  | reload (e : Env) (l : Option (List Ifa))
  /-- otherwise: the scans due to netlink and due to the time that has passed, if any, and how the steps end.  Whether
  netlink is read makes no difference here. -/
  | work (scans : List (Env × Option (List Ifa))) (ok4 ok6 : Bytes → Bool)

/-- The calls of `sys_init` in a round.  `src/mdnsd.c:424`, `442`, `446`. -/
def scans (ifname : Option Bytes) : List (Env × Option (List Ifa)) → List Slot → M (List Slot)
  | [], t => pure t
  | (e, l) :: r, t => do
    let t ← sysInit ifname e l t
    scans ifname r t

/-- `src/mdnsd.c:390-481`; `nl` is the netlink socket. -/
def round (ifname : Option Bytes) (nl : Option Nat) (ev : Ev) (t : List Slot) : M (List Slot) := do
  waitFor nl t
  match ev with
  | .interrupted => pure t
  | .reload e l => do
    let t ← sysInit ifname e l t
    forIfaces reread t
  | .work sc ok4 ok6 => do
    whenSome nl useFd
    let t ← scans ifname sc t
    forIfaces (serve ok4 ok6) t

/-- The rounds of the main loop, `src/mdnsd.c:390-481`. -/
def rounds (ifname : Option Bytes) (nl : Option Nat) : List Ev → List Slot → M (List Slot)
  | [], t => pure t
  | ev :: r, t => do
    let t ← round ifname nl ev t
    rounds ifname nl r t

/-- `main` up to its loop, `src/mdnsd.c:386-388`: the netlink socket and the interfaces. -/
def start (ifname : Option Bytes) (e : Env) (l : Option (List Ifa)) (nlSock : Sock) : M (Option Nat × List Slot) := do
  let t ← sysInit ifname e l []
  let nl ← socket e nlSock
  pure (nl, t)

/-- The end of `main`, `src/mdnsd.c:483-489`. -/
def finish (nl : Option Nat) (t : List Slot) : M Unit := do
  let _ ← forIfaces (fun x => do freeIface x; pure none) t
  whenSome nl close

/-- `main`.  `src/mdnsd.c:384-490`. -/
def main (ifname : Option Bytes) (e : Env) (l : Option (List Ifa)) (nlSock : Sock) (evs : List Ev) : M Unit := do
  let (nl, t) ← start ifname e l nlSock
  let t ← rounds ifname nl evs t
  finish nl t

end Mdns.Proc
