import Verif.Model.DaemonTypes

/-!
# Sockets as the system treats them

What Linux does with the options of UDP sockets, as far as multicast DNS depends on it: see `ip(7)`, `ipv6(7)`,
`socket(7)`.  This is part of what is trusted.
-/

namespace Mdns.Net

/-- How an interface is named to the system. -/
inductive Via where
  | index (n : Nat)
  | addr (a : Ip4)
deriving DecidableEq, Repr

/-- The options of `setsockopt`, with their values. -/
inductive Opt where
  | reusePort
  | reuseAddr
  /-- `SO_RCVBUF` -/
  | rcvBuf (n : Nat)
  /-- `IP_MULTICAST_LOOP`, `IPV6_MULTICAST_LOOP` -/
  | loop (on : Bool)
  /-- `IP_MULTICAST_ALL` -/
  | all (on : Bool)
  /-- `IP_MULTICAST_TTL`, `IPV6_MULTICAST_HOPS` -/
  | hops (n : Nat)
  /-- `IP_TTL`, `IPV6_UNICAST_HOPS` -/
  | ttl (n : Nat)
  /-- `IP_MULTICAST_IF`, `IPV6_MULTICAST_IF` -/
  | out (v : Via)
  /-- `SO_BINDTODEVICE`; an empty name undoes it -/
  | device (name : Bytes)
  | v6only
  /-- `IP_ADD_MEMBERSHIP`, `IPV6_JOIN_GROUP` -/
  | join (group : Ip) (v : Via)
deriving DecidableEq, Repr

/-- A UDP socket; the values are those of a new one. -/
structure Sock where
  family : Family
  owner : Nat
  nonblock : Bool
  rcvBuf : Nat
  reusePort : Bool := false
  reuseAddr : Bool := false
  loop : Bool := true
  all : Bool := true
  hops : Nat := 1
  ttl : Nat := 64
  out : Via := .index 0
  device : Bytes := []
  v6only : Bool := false
  joined : List (Ip × Via) := []
  /-- the port it is bound to, with no address -/
  port : Option Nat := none
deriving DecidableEq, Repr

/-- A system: the names of its interfaces by index, the interface it picks for an address and for none, the size of the
receive buffer of a new socket and the most that may be asked for. -/
structure Host where
  name : Nat → Bytes
  byAddr : Ip4 → Nat
  usual : Nat
  rmem : Nat
  rmemMax : Nat

/-- The interface that is meant. -/
def Host.resolve (h : Host) : Via → Nat
  | .index n => if n = 0 then h.usual else n
  | .addr a => if a = ip4Zero then h.usual else h.byAddr a

/-- An option is set. -/
def Host.set (h : Host) (s : Sock) : Opt → Sock
  | .reusePort => { s with reusePort := true }
  | .reuseAddr => { s with reuseAddr := true }
  | .rcvBuf n => { s with rcvBuf := 2 * min n h.rmemMax }
  | .loop b => { s with loop := b }
  | .all b => { s with all := b }
  | .hops n => { s with hops := n }
  | .ttl n => { s with ttl := n }
  | .out v => { s with out := v }
  | .device n => { s with device := n }
  | .v6only => { s with v6only := true }
  | .join g v => { s with joined := s.joined ++ [(g, v)] }

/-- Two sockets cannot be bound to the same port. -/
def Clash (a b : Sock) : Prop :=
  (a.family = b.family ∨ a.family = .inet6 ∧ a.v6only = false ∨ b.family = .inet6 ∧ b.v6only = false) ∧
  (a.device = [] ∨ b.device = [] ∨ a.device = b.device) ∧
  ¬ (a.reuseAddr ∧ b.reuseAddr) ∧ ¬ (a.reusePort ∧ b.reusePort ∧ a.owner = b.owner)

instance (a b : Sock) : Decidable (Clash a b) := by unfold Clash; infer_instance

/-- A socket is a member of a group on an interface. -/
def Member (h : Host) (s : Sock) (group : Ip) (i : Nat) : Prop := ∃ v, (group, v) ∈ s.joined ∧ h.resolve v = i

/-- A packet for a group and a port that arrives at an interface is given to a socket, if these are all sockets.  The
system does not take packets for groups of which no socket is a member. -/
def Hears (h : Host) (all : List Sock) (s : Sock) (group : Ip) (port i : Nat) : Prop :=
  s.port = some port ∧ (s.device = [] ∨ s.device = h.name i) ∧
  (Member h s group i ∨ s.all = true ∧ ∃ t ∈ all, t.family = s.family ∧ Member h t group i)

end Mdns.Net
