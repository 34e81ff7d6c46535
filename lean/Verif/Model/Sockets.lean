import Verif.Spec.Sockets

/-!
# The sockets of the programs, `src/mcsock.c`

Which options are set on a socket, in which order, and what follows when the system refuses.  What the options mean is
`Spec/Sockets`.  Whether sockets are closed when they are not returned is in `Model/Process`.
-/

namespace Mdns.Net

/-- What the system offers, found out when the programs are built: `SO_REUSEPORT`, `IP_MULTICAST_ALL`,
`SO_BINDTODEVICE` and `struct ip_mreqn` (`configure.ac:32-46`).  Used in `src/mcsock.c:70-173`. -/
structure Plat where
  reusePort : Bool
  multicastAll : Bool
  bindToDevice : Bool
  mreqn : Bool

/-- `struct ifnfo`, `src/mcsock.h:35-39`; the name ends at its terminating zero. -/
structure Info where
  name : Bytes
  index : Nat
  addr : Ip4 := ip4Zero

/-- `get_addr`, `src/mcsock.c:46-67`: `l` is what `getifaddrs` gives, with `none` for anything but an IPv4 address. -/
def getAddr (name : Bytes) : Option (List (Bytes × Option Ip4)) → Ip4
  | none => ip4Zero
  | some l => (l.findSome? fun (n, a) => if n = name then a else none).getD ip4Zero

/-- The calls that may fail: `socket`, an option by its place in the sequence, `getsockopt`, `bind`.  `src/mcsock.c:70-251`. -/
inductive Refused where
  | socket
  | opt (k : Nat)
  | getsockopt
  | bind
deriving DecidableEq, Repr

/-- `setsockopt` one after another; a failure is only logged.  `src/mcsock.c:70-251`. -/
def setAll (h : Host) (no : Refused → Bool) : List Opt → Nat → Sock → Sock
  | [], _, s => s
  | o :: rest, k, s => setAll h no rest (k + 1) (if no (.opt k) then s else h.set s o)

/-- 224.0.0.251, `src/mcsock.c:156`. -/
def group4 : Ip := .v4 #v[224, 0, 0, 251]

/-- ff02::fb, `src/mcsock.c:234`. -/
def group6 : Ip := .v6 #v[255, 2, 0, 0, 0, 0, 0, 0, 0, 0, 0, 0, 0, 0, 0, 251]

/-- The options of `mc_socket`, `src/mcsock.c:96-158`; `buf` is what `getsockopt` gives, and `addr` the address of the
interface. -/
def options4 (p : Plat) (i : Info) (addr : Ip4) (ttl : Nat) (buf : Option Nat) : List Opt :=
  let via := if p.mreqn then Via.index i.index else .addr addr
  (if p.reusePort then [.reusePort] else []) ++ [.reuseAddr] ++ buf.toList.map .rcvBuf ++ [.loop true] ++
    (if p.multicastAll then [.all false] else []) ++ [.hops ttl, .ttl 255, .out via] ++
    (if p.bindToDevice then [.device i.name] else []) ++ [.join group4 via]

/-- The options of `mc_socket6`, `src/mcsock.c:201-237`. -/
def options6 (p : Plat) (i : Info) (ttl : Nat) : List Opt :=
  (if p.reusePort then [.reusePort] else []) ++ [.reuseAddr, .v6only, .loop true, .hops ttl, .ttl 255] ++
    (if i.index = 0 then [] else .out (.index i.index) :: if p.bindToDevice then [.device i.name] else []) ++
    [.join group6 (.index i.index)]

/-- `bind` to port 5353, `src/mcsock.c:161-168`, `:239-247`: fails if another socket does not share the port. -/
def bind (no : Refused → Bool) (others : List Sock) (s : Sock) : Option Sock :=
  if no .bind then none
  else if ∃ t ∈ others, t.port = some 5353 ∧ Clash s t then none
  else some { s with port := some 5353 }

/-- `mc_socket`, `src/mcsock.c:70-173`, among the other sockets of the system; `none` for -1.  `src/mcsock.c:131-133` fills
in the address of the interface. -/
def mcSocket (p : Plat) (h : Host) (owner : Nat) (no : Refused → Bool) (ifs : Option (List (Bytes × Option Ip4)))
    (others : List Sock) (i : Info) (ttl : Nat) : Option Sock :=
  if no .socket then none
  else
    let addr := if i.index ≠ 0 ∧ i.addr = ip4Zero then getAddr i.name ifs else i.addr
    let s : Sock := { family := .inet, owner := owner, nonblock := true, rcvBuf := h.rmem }
    bind no others (setAll h no (options4 p i addr ttl (if no .getsockopt then none else some s.rcvBuf)) 0 s)

/-- `mc_socket6`, `src/mcsock.c:186-251`. -/
def mcSocket6 (p : Plat) (h : Host) (owner : Nat) (no : Refused → Bool) (others : List Sock) (i : Info) (ttl : Nat) : Option Sock :=
  if no .socket then none
  else
    let s : Sock := { family := .inet6, owner := owner, nonblock := true, rcvBuf := h.rmem }
    bind no others (setAll h no (options6 p i ttl) 0 s)

/-- `mdns_socket` and `mdns_socket6`, `src/mcsock.c:176-183`, `:253-259`. -/
def mdnsSocket (p : Plat) (h : Host) (owner : Nat) (no : Refused → Bool) (ifs : Option (List (Bytes × Option Ip4)))
    (others : List Sock) (f : Family) (i : Info) (ttl : Nat) : Option Sock :=
  let ttl := if ttl = 0 then 1 else ttl
  match f with
  | .inet => mcSocket p h owner no ifs others i ttl
  | .inet6 => mcSocket6 p h owner no others i ttl

/-- `multicast_socket` of `mdnsd`, `src/mdnsd.c:67-82`: the time to live is that of `-t`, between 1 and 255
(`src/mdnsd.c:354-356`), and 255 without it (`src/mdnsd.c:60`). -/
def daemonSocket (p : Plat) (h : Host) (owner : Nat) (no : Refused → Bool) (ifs : Option (List (Bytes × Option Ip4)))
    (others : List Sock) (f : Family) (i : Info) (t : Option (Fin 255)) : Option Sock :=
  mdnsSocket p h owner no ifs others f i (match t with | none => 255 | some t => t.val + 1)

/-- `msock` of `mquery`, `src/mquery.c:476-493`: the name is cut to 15 bytes; `index` is `if_nametoindex`, which gives 0
if there is no such interface.  Without a name (`none`) there is no socket. -/
def querySocket (p : Plat) (h : Host) (owner : Nat) (no : Refused → Bool) (ifs : Option (List (Bytes × Option Ip4)))
    (others : List Sock) (f : Family) (index : Bytes → Nat) : Option Bytes → Option Sock
  | none => none
  | some n => mdnsSocket p h owner no ifs others f { name := n.take 15, index := index n } 0

end Mdns.Net
