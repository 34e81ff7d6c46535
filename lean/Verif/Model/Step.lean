import Verif.Model.Daemon
import Verif.Model.Rx

/-!
# `mdnsd_step`: receiving, sending and sleeping over a socket
-/

namespace Mdns

variable {Q : Type} [QOps Q]

open M

/-- What one `recvfrom` of `process_in` gives: a datagram, its source, and the clock when it is
taken in.  `libmdnsd/mdnsd.c:1919-1947`. -/
structure Datagram where
  clock : TV
  data : Bytes
  src : Addr

/-- `process_in`, `libmdnsd/mdnsd.c:1919-1947`.  `buf` is what the buffer holds; the list has the
datagrams waiting on the socket.  Longer datagrams are cut by `recvfrom`, an empty one ends the
loop.  When no datagram is left `recvfrom` fails, `failed` says whether with something other than
EAGAIN.  Neither the logging nor an address longer than `from` is modelled. -/
def processIn (env : Env) (failed : Bool) : List Datagram → (Nat → UInt8) → M Q Nat
  | [], _ => pure (if failed then 1 else 0)
  | g :: rest, buf =>
    if g.data = [] then pure 0
    else
      let buf := received buf (g.data.take maxPacketLen)
      match messageParse ⟨recvSize, fun i => if i = maxPacketLen then 0 else buf i⟩ structCap with
      | .ok m => do
        let _ ← inMsg env g.clock m g.src
        processIn env failed rest fun i => if i = maxPacketLen then 0 else buf i
      | .fail => processIn env failed rest fun i => if i = maxPacketLen then 0 else buf i
      | .hang => hang
      | .oob => ub
      | .wub => ub

/-- `process_out`, `libmdnsd/mdnsd.c:1949-1967`: `clock k` is the time of call `k` of `mdnsd_out`
and `accepted k` whether `sendto` then takes the whole packet.  Gives the result and the packets
handed to `sendto`.  The loop has no bound of its own; when the fuel is used up the result is
`hang`. -/
def processOut (env : Env) (clock : Nat → TV) (accepted : Nat → Bool) :
    Nat → Nat → M Q (Nat × List (Out × Addr))
  | 0, _ => hang
  | fuel + 1, k => do
    let (ret, m, to) ← outMsg env (clock k)
    if ret = 0 then pure (0, [])
    else if accepted k then do
      let (rc, ms) ← processOut env clock accepted fuel (k + 1)
      pure (rc, (m, to) :: ms)
    else pure (2, [(m, to)])

/-- What happens around one `mdnsd_step`.  `libmdnsd/mdnsd.c:1919-1990`. -/
structure StepIo where
  /-- the flag `in`, the datagrams waiting, and whether `recvfrom` then fails with something other
  than EAGAIN -/
  input : Bool := true
  datagrams : List Datagram := []
  failed : Bool := false
  /-- the flag `out`, the clock and `sendto` -/
  output : Bool := true
  clock : Nat → TV
  accepted : Nat → Bool := fun _ => true
  /-- `tv` is not NULL, and the clock -/
  wait : Bool := true
  sleepAt : TV

/-- What `mdnsd_step` gives: its result, the packets handed to `sendto`, and `*tv` if it is set.  `libmdnsd/mdnsd.c:1969-1990`. -/
structure StepOut where
  rc : Nat
  packets : List (Out × Addr)
  tv : Option TV

/-- `libmdnsd/mdnsd.c:1973-1974`. -/
def stepIn (env : Env) (io : StepIo) : M Q Nat :=
  if io.input then processIn env io.failed io.datagrams fun _ => 0 else pure 0

/-- `libmdnsd/mdnsd.c:1975-1976`. -/
def stepOut (env : Env) (io : StepIo) (fuel rc : Nat) : M Q (Nat × List (Out × Addr)) :=
  if rc = 0 ∧ io.output then processOut env io.clock io.accepted fuel 0 else pure (rc, [])

/-- `libmdnsd/mdnsd.c:1978-1983`. -/
def stepWait (io : StepIo) (rc : Nat) : M Q (Option TV) :=
  if rc = 0 ∧ io.wait then do
    let t ← Mdns.sleep io.sleepAt
    pure (some t)
  else pure none

/-- `mdnsd_step`, `libmdnsd/mdnsd.c:1969-1990`. -/
def mdnsdStep (env : Env) (io : StepIo) (fuel : Nat) : M Q StepOut := do
  let rc ← stepIn env io
  let (rc, ms) ← stepOut env io fuel rc
  let tv ← stepWait io rc
  modC fun c => { c with disco := false }
  pure ⟨rc, ms, tv⟩

end Mdns
