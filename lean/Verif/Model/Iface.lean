import Verif.Model.Basic

/-!
# The table of network interfaces, `src/addr.c` and `src/mdnsd.c`

IPv4 and IPv6 addresses are numbers, most significant byte first.
-/

namespace Mdns.Iface

/-- `is_zeronet`, `src/mdnsd.h:45-47, 104-107`. -/
def zeronet (a : Nat) : Bool := a / 2 ^ 24 == 0

/-- `is_linklocal`, `src/mdnsd.h:53-56, 99-102`. -/
def linklocal (a : Nat) : Bool := a / 2 ^ 16 == 0xA9FE

/-- `IN6_IS_ADDR_LINKLOCAL` of `netinet/in.h`: the first ten bits.  `src/addr.c:124-226`. -/
def linklocal6 (a : Nat) : Bool := a / 2 ^ 118 == 0xFE80 / 2 ^ 6

/-- `IN6_IS_ADDR_SITELOCAL` of `netinet/in.h`: the first ten bits.  `src/addr.c:124-226`. -/
def sitelocal6 (a : Nat) : Bool := a / 2 ^ 118 == 0xFEC0 / 2 ^ 6

/-- `(s6_addr[0] & 0xfe) == 0xfc`, `src/addr.c:211`: the first seven bits. -/
def unique6 (a : Nat) : Bool := a / 2 ^ 121 == 0xFC / 2

/-- An address of an interface.  `src/addr.c:124-226`. -/
inductive Addr where
  | v4 (a : Nat)
  | v6 (a : Nat)
deriving Repr, DecidableEq

/-- One entry of the list from `getifaddrs`.  `addr` is `none` if there is no
address, if it is of another family, or if `getnameinfo` or `inet_pton` reject
it; otherwise it is the address `inet_pton` gives.  `src/addr.c:124-226`. -/
structure Ifa where
  name : Bytes
  loopback : Bool := false
  multicast : Bool := true
  up : Bool := true
  addr : Option Addr
deriving Repr, DecidableEq

/-- `struct iface`, `src/mdnsd.h:58-76`, without sockets and contexts.
`conf` is not in the code: the addresses of the interface when `conf_init` was
last called for it. -/
structure Iface where
  name : Bytes
  unused : Bool := false
  changed : Bool := false
  in4 : Nat := 0
  old4 : Nat := 0
  in6 : Nat := 0
  old6 : Nat := 0
  conf : Option (Nat × Nat) := none
deriving Repr, DecidableEq

/-- `iface_find`, `src/addr.c:65-77`. -/
def find (t : List Iface) (n : Bytes) : Option Iface := t.find? (·.name == n)

/-- `mark` for one interface, `src/addr.c:92-98`. -/
def mark1 (i : Iface) : Iface :=
  { i with unused := true, old4 := i.in4, in4 := 0, old6 := i.in6, in6 := 0 }

/-- `sweep` for one interface, `src/addr.c:106-119`; the count is not used. -/
def sweep1 (i : Iface) : Iface :=
  if i.unused then i
  else if !i.changed then i
  else if i.in4 = i.old4 ∧ i.in6 = i.old6 then { i with changed := false }
  else i

/-- The conditions of `iface_init`, `src/addr.c:143-172`: the address to look
at, if any.  `ifname` is the argument of `-i`. -/
def usable (ifname : Option Bytes) (e : Ifa) : Option Addr :=
  if e.loopback then none
  else if !e.multicast then none
  else if !e.up then none
  else if ifname.isSome && ifname != some e.name then none
  else e.addr

/-- The choice of the address, `src/addr.c:196-217`. -/
def take (i : Iface) : Addr → Iface
  | .v4 a =>
    if i.in4 ≠ a ∧ (zeronet i.in4 || linklocal i.in4) then { i with in4 := a, changed := true } else i
  | .v6 a =>
    if i.in6 ≠ a ∧ (i.in6 == 0 || linklocal6 i.in6 || (sitelocal6 i.in6 && !linklocal6 a) ||
        (unique6 i.in6 && !sitelocal6 a && !linklocal6 a)) then
      { i with in6 := a, changed := true }
    else i

/-- Changes the first interface of the given name.  `src/addr.c:65-77`, `124-226`. -/
def modify (f : Iface → Iface) (n : Bytes) : List Iface → List Iface
  | [] => []
  | i :: t => if i.name == n then f i :: t else i :: modify f n t

/-- The body of the loop of `iface_init`, `src/addr.c:138-222`.  With `-i` the
pointer `iface` is kept from one round to the next; as then all entries looked
at have the same name, this is the interface `iface_find` would return.  Names
are shorter than `IFNAMSIZ`, memory allocation does not fail. -/
def visit (ifname : Option Bytes) (t : List Iface) (e : Ifa) : List Iface :=
  match usable ifname e with
  | none => t
  | some a =>
    match find t e.name with
    | none => t ++ [take { name := e.name } a]
    | some _ => modify (fun i => take { i with unused := false } a) e.name t

/-- `iface_init`, `src/addr.c:124-226`; `none` if `getifaddrs` fails. -/
def scan (ifname : Option Bytes) (l : Option (List Ifa)) (t : List Iface) : List Iface :=
  match l with
  | none => t
  | some l => (l.foldl (visit ifname) (t.map mark1)).map sweep1

/-- `setup_iface` for one interface, `src/mdnsd.c:166-216`; `none` if it is
freed.  Creating sockets and contexts does not fail; calling `conf_init` is noted
in `conf`. -/
def setup1 (i : Iface) : Option Iface :=
  if !i.changed then some i
  else if i.unused then none
  else some { i with conf := some (i.in4, i.in6), changed := false }

/-- `sys_init`, `src/mdnsd.c:237-246`. -/
def sysInit (ifname : Option Bytes) (l : Option (List Ifa)) (t : List Iface) : List Iface :=
  (scan ifname l t).filterMap setup1

/-- The reload in the main loop, `src/mdnsd.c:423-432`. -/
def reload (ifname : Option Bytes) (l : Option (List Ifa)) (t : List Iface) : List Iface :=
  (sysInit ifname l t).map (fun i => { i with conf := some (i.in4, i.in6) })

end Mdns.Iface
