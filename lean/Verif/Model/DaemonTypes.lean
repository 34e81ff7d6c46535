import Verif.Model.Builder
import Verif.Model.Parser
import Verif.Model.Hash

/-!
# Data of the mDNS daemon, `libmdnsd/mdnsd.c:62-116` and `libmdnsd/mdnsd.h`

Records, cached answers, queries and pending unicast answers, the part of
`struct mdns_daemon` that does not consist of the four intrusive record queues
(those are in `Model/Queues`), and the inputs a run of the daemon depends on.
-/

namespace Mdns

/-- Outcome of an operation: normal, undefined behaviour (use of a freed or NULL
object), or a loop that does not end.  Not in the code, for all of `libmdnsd/mdnsd.c:118-2007`. -/
inductive Res (α : Type) where
  | ok (a : α)
  | ub
  | hang
deriving Repr, DecidableEq

/-- One operation after another; not in the code, for all of `libmdnsd/mdnsd.c:118-2007`. -/
@[inline] def Res.bind {α β : Type} : Res α → (α → Res β) → Res β
  | .ok a, f => f a
  | .ub, _ => .ub
  | .hang, _ => .hang

/-- Sequences of operations; not in the code, for all of `libmdnsd/mdnsd.c:118-2007`. -/
instance : Monad Res where
  pure := .ok
  bind := Res.bind

/-- `struct timeval`.  Clock values are not negative.  `libmdnsd/mdnsd.c:99`. -/
structure TV where
  sec : Nat := 0
  usec : Nat := 0
deriving DecidableEq, Repr, Inhabited

/-- `_tvdiff`, `libmdnsd/mdnsd.c:234-242`: microseconds from `old` to `new`. -/
def tvdiff (old new : TV) : Int :=
  ((new.usec : Int) - old.usec) + ((new.sec : Int) - old.sec) * 1000000

/-- `struct in_addr`, `libmdnsd/mdnsd.c:107`. -/
abbrev Ip4 := Vector UInt8 4
/-- `struct in6_addr`, `libmdnsd/mdnsd.c:108`. -/
abbrev Ip6 := Vector UInt8 16

/-- No address, `libmdnsd/mdnsd.c:187`. -/
def ip4Zero : Ip4 := Vector.replicate 4 0
/-- No address, `libmdnsd/mdnsd.c:189`. -/
def ip6Zero : Ip6 := Vector.replicate 16 0

/-- The first `n` bytes as an address.  `memcpy` from a packet, `libmdnsd/1035.c:302`, `312`. -/
def toVec (n : Nat) (b : Bytes) : Vector UInt8 n := Vector.ofFn fun i => b.getD i.1 0

/-- An interface address or the address part of a `sockaddr`.  `libmdnsd/inet.h:15`, `libmdnsd/mdnsd.c:839-897`. -/
inductive Ip where
  | v4 (a : Ip4)
  | v6 (a : Ip6)
deriving DecidableEq, Repr

/-- `inet_addr_t`, `libmdnsd/inet.h`: an address and a port in host byte order
(`inet_port`, `libmdnsd/inet.c:20-27`). -/
structure Addr where
  ip : Ip
  port : Nat
deriving DecidableEq, Repr

/-- `sa_family_t`: `AF_INET` or `AF_INET6`.  `libmdnsd/mdnsd.c:106`. -/
inductive Family where
  | inet
  | inet6
deriving DecidableEq, Repr

/-- `mdns_answer_t`, `libmdnsd/mdnsd.h:58-70`.  `rdata` is `none` for NULL and
`rdlen` is its length (true in every state: `rdlen` is only set together with
`rdata`). -/
structure Answer where
  name : Bytes
  type : Nat
  ttl : Nat
  rdata : Option Bytes := none
  ip : Ip4 := ip4Zero
  ip6 : Ip6 := ip6Zero
  rdname : Option Bytes := none
  priority : Nat := 0
  weight : Nat := 0
  port : Nat := 0
deriving DecidableEq, Repr

/-- `struct mdns_record`, `libmdnsd/mdnsd.c:85-94`, without the two links: `next`
is the order of the hash bucket (`Core.published`), `list` is in `Model/Queues`.
`conflict` is `none` for a NULL callback, else a tag naming callback and argument. -/
structure Rec where
  rr : Answer
  unique : Nat := 0
  modified : Bool := false
  tries : Nat := 0
  conflict : Option Nat := none
  lastSent : TV := {}
deriving DecidableEq, Repr

/-- `struct cached`, `libmdnsd/mdnsd.c:79-83`; `q` is the query's id. -/
structure Cached where
  rr : Answer
  q : Option Nat := none
deriving DecidableEq, Repr

/-- `struct query`, `libmdnsd/mdnsd.c:62-70`; `cb` names the callback and its argument. -/
structure Query where
  name : Bytes
  type : Nat
  nexttry : Nat := 0
  tries : Nat := 0
  cb : Nat
deriving DecidableEq, Repr

/-- `struct unicast`, `libmdnsd/mdnsd.c:72-77`. -/
structure Unicast where
  id : Nat
  to : Addr
  r : Nat
deriving DecidableEq, Repr

/-- Calls from the library into the application and, as seen by the application,
the registration and end of queries.  `libmdnsd/mdnsd.c:491`, `497`, `1189`, `1236`, `1535-1575`. -/
inductive Event where
  /-- the answer callback `cb` of query `q` -/
  | answer (q cb : Nat) (rr : Answer)
  /-- the conflict callback of record `r` -/
  | conflict (r : Nat) (name : Bytes) (type : Nat)
  /-- the receive callback (`mdnsd_register_receive_callback`) -/
  | received (r : Resource)
  /-- `mdnsd_query(host, type, cb)` -/
  | registered (host : Bytes) (type cb : Nat)
  /-- the query of this name and type ended: `mdnsd_query(host, type, NULL)`, or a
  callback returned -1 -/
  | unregistered (host : Bytes) (type : Nat)
deriving DecidableEq, Repr

/-- What an answer callback does: the queries it registers through
`mdnsd_query` (host, type, callback tag), and whether it returns -1.  Callbacks
that unregister queries with `mdnsd_query(.., NULL)` or that modify records are
not modelled.  `libmdnsd/mdnsd.c:491`. -/
structure CbAct where
  stop : Bool := false
  reg : List (Bytes × Nat × Nat) := []

/-- The world outside: the answer callbacks' behaviour, depending on all callbacks
made so far (the current one last), and the results of successive `getifaddrs`
calls (`none` is failure).  `libmdnsd/mdnsd.c:491`, `820-837`. -/
structure Env where
  answer : List Event → CbAct
  ifaddrs : Nat → Option (List Ip)

/-- `SPRIME`, `libmdnsd/mdnsd.c:40`. -/
def sprime : Nat := 109
/-- `LPRIME`, `libmdnsd/mdnsd.c:41`. -/
def lprime : Nat := 1009
/-- `GC`, `libmdnsd/mdnsd.c:43`. -/
def gcInterval : Nat := 86400

/-- `DISCO_NAME`, `libmdnsd/mdnsd.h:41`: `_services._dns-sd._udp.local.` -/
def discoName : Bytes :=
  [0x5f, 0x73, 0x65, 0x72, 0x76, 0x69, 0x63, 0x65, 0x73, 0x2e,
   0x5f, 0x64, 0x6e, 0x73, 0x2d, 0x73, 0x64, 0x2e,
   0x5f, 0x75, 0x64, 0x70, 0x2e, 0x6c, 0x6f, 0x63, 0x61, 0x6c, 0x2e]

/-- `struct mdns_daemon`, `libmdnsd/mdnsd.c:96-116`, without the four record
queues.  The hash chains (`cache`, `published`, `queries`) and the list of
queries (`qlist`) are lists of entries or ids; `recs` and `qs` are the
allocated records and queries (`none`: never allocated or freed; ids are not
reused).  `log` is the sequence of events (it is not part of the C
structure), `nifs` the number of
`getifaddrs` calls, `nextq` the next query id. -/
structure Core where
  shutdown : Bool := false
  disco : Bool := false
  expireall : Nat := 0
  checkqlist : Nat := 0
  now : TV := {}
  sleep : TV := {}
  pause : TV := {}
  probe : TV := {}
  publish : TV := {}
  cls : Nat := 1
  frame : Nat := 0
  cache : Nat → List Cached := fun _ => []
  recs : Nat → Option Rec := fun _ => none
  published : Nat → List Nat := fun _ => []
  uanswers : List Unicast := []
  qs : Nat → Option Query := fun _ => none
  nextq : Nat := 0
  queries : Nat → List Nat := fun _ => []
  qlist : List Nat := []
  family : Family := .inet
  addr : Ip4 := ip4Zero
  addr6 : Ip6 := ip6Zero
  locals : List Ip := []
  refreshed : Nat := 0
  nifs : Nat := 0
  recvCb : Bool := false
  log : List Event := []

/-- The daemon: `Q` represents the four record queues.  `libmdnsd/mdnsd.c:96-116`. -/
structure D (Q : Type) where
  c : Core
  q : Q

/-- Operations on the daemon.  Not in the code, for all of `libmdnsd/mdnsd.c:118-2007`. -/
def M (Q α : Type) : Type := D Q → Res (α × D Q)

/-- Sequences of operations; not in the code, for all of `libmdnsd/mdnsd.c:118-2007`. -/
instance (Q : Type) : Monad (M Q) where
  pure a := fun d => .ok (a, d)
  bind x f := fun d =>
    match x d with
    | .ok (a, d') => f a d'
    | .ub => .ub
    | .hang => .hang

namespace M

variable {Q : Type}

/-- Undefined behaviour.  Not in the code: for example `libmdnsd/mdnsd.c:404` with a NULL `cur`. -/
def ub {α : Type} : M Q α := fun _ => .ub
/-- A loop that does not end.  Not in the code: for example `libmdnsd/mdnsd.c:254` in a circular list. -/
def hang {α : Type} : M Q α := fun _ => .hang

/-- Read the part without the queues.  `libmdnsd/mdnsd.c:96-116`. -/
def core : M Q Core := fun d => .ok (d.c, d)
/-- Change the part without the queues.  `libmdnsd/mdnsd.c:96-116`. -/
def modC (f : Core → Core) : M Q Unit := fun d => .ok ((), { d with c := f d.c })
/-- Run an operation that does not touch the queues.  Not in the code, for example `libmdnsd/mdnsd.c:543-656`. -/
def liftC {α : Type} (f : Core → Res (α × Core)) : M Q α := fun d =>
  match f d.c with
  | .ok (a, c) => .ok (a, { d with c := c })
  | .ub => .ub
  | .hang => .hang
/-- Run an operation on the queues.  Not in the code, for example `libmdnsd/mdnsd.c:244-292`. -/
def liftQ {α : Type} (f : Q → Res (α × Q)) : M Q α := fun d =>
  match f d.q with
  | .ok (a, q) => .ok (a, { d with q := q })
  | .ub => .ub
  | .hang => .hang

/-- Dereference a record.  For example `libmdnsd/mdnsd.c:299`. -/
def getRec (r : Nat) : M Q Rec := fun d =>
  match d.c.recs r with
  | some x => .ok (x, d)
  | none => .ub

/-- Change a record.  For example `libmdnsd/mdnsd.c:297`. -/
def modRec (r : Nat) (f : Rec → Rec) : M Q Unit := fun d =>
  match d.c.recs r with
  | some x => .ok ((), { d with c := { d.c with recs := upd d.c.recs r (some (f x)) } })
  | none => .ub

end M

/-! ### Outgoing messages -/

/-- A call of the packet building API as made by the daemon.  `srvNull` is
`message_rdata_srv` with a NULL name (`_host` then writes nothing,
`libmdnsd/1035.c:204-205`). -/
inductive MOp where
  | b (o : BOp)
  | srvNull (priority weight port : Nat)
deriving Repr, DecidableEq

/-- What the call does, `libmdnsd/1035.c:428-512`. -/
def mstep (m : Builder) : MOp → Builder
  | .b o => bstep m o
  | .srvNull p w o => (((m.put (putShort 6)).put (putShort p)).put (putShort w)).put (putShort o)

/-- The `struct message` filled by `mdnsd_out`: id, header and the calls made.  `tags` says which
record each entry was made from; it is not part of the message and does not influence anything.  `libmdnsd/1035.h:103-120`, `libmdnsd/mdnsd.c:1247-1261`. -/
structure Out where
  id : Nat := 0
  qr : Bool := true
  aa : Bool := true
  ops : List MOp := []
  tags : List (Section × Nat) := []
deriving Repr, DecidableEq

/-- The builder state of an outgoing message.  `libmdnsd/1035.h:103-120`. -/
def Out.builder (m : Out) : Builder :=
  m.ops.foldl mstep { id := m.id, header := { qr := m.qr, aa := m.aa } }

/-- `message_packet_len`, `libmdnsd/1035.c:548-554`. -/
def Out.len (m : Out) : Nat := packetLen m.builder

/-- More calls of the packet building API, `libmdnsd/1035.c:428-512`. -/
def Out.add (m : Out) (ops : List MOp) : Out := { m with ops := m.ops ++ ops }

end Mdns
