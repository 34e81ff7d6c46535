import Verif.Model.Step

/-!
# The main loop of `mquery`, `src/mquery.c:617-659`
-/

namespace Mdns.Mquery

variable {Q : Type} [QOps Q]

open M

/-- The options that end the loop, `src/mquery.c:552-553` and `587-588`: `-T` and `-w SEC`; without `-w` it is 0. -/
structure Opts where
  terminate : Bool := false
  wait : Int := 0

/-- What the loop keeps from round to round: the receive buffer, `src/mquery.c:515`, which holds anything at first, and
`last_rx`, `src/mquery.c:618`. -/
structure Kept where
  buf : Nat → UInt8
  lastRx : Nat := 0

/-- What happens in one round: the clock when `mdnsd_sleep` and each `mdnsd_out` are called, the datagrams that wait on
the socket, each with the second it is taken, whether `recvfrom` or `sendto` fail as in `processIn` and `processOut`, and
the microsecond of the tests at the end (both tests read the clock; the same time is taken).  If `select` says that there is
nothing to read there are no datagrams.  `src/mquery.c:619-658`. -/
structure Round where
  sleepAt : TV
  datagrams : List (Nat × Datagram) := []
  failed : Bool := false
  clock : Nat → TV
  accepted : Nat → Bool := fun _ => true
  over : Nat

/-- How long `select` waits at most, `src/mquery.c:619-624`. -/
def timeout (o : Opts) (tv : TV) : TV := if o.terminate && tv.sec ≥ 1 then ⟨1, 0⟩ else tv

/-- Receiving, `src/mquery.c:630-641`.  Unlike that of `process_in` the buffer has only `MAX_PACKET_LEN` bytes and no
zero is written behind the datagram. -/
def takeIn (env : Env) (failed : Bool) : List (Nat × Datagram) → Kept → M Q (Nat × Kept)
  | [], k => pure (if failed then 1 else 0, k)
  | (t, g) :: rest, k =>
    if g.data = [] then pure (0, k)
    else
      let buf := received k.buf (g.data.take maxPacketLen)
      match messageParse ⟨maxPacketLen, buf⟩ structCap with
      | .ok m => do
        let _ ← inMsg env g.clock m g.src
        takeIn env failed rest ⟨buf, t⟩
      | .fail => takeIn env failed rest ⟨buf, t⟩
      | .hang => hang
      | .oob => ub
      | .wub => ub

/-- How a round ends.  `src/mquery.c:639-657`. -/
inductive Verdict where
  /-- the loop goes on -/
  | go
  /-- `break` -/
  | done
  /-- `return 1` -/
  | error
deriving DecidableEq, Repr

/-- The tests at the end of a round, `src/mquery.c:653-656`. -/
def ended (o : Opts) (start lastRx over : Nat) : Bool :=
  (o.terminate && lastRx != 0 && ((over / 1000000 : Nat) : Int) - lastRx ≥ 2) ||
    (o.wait != 0 && ((over / 1000000 : Nat) : Int) - start ≥ o.wait)

/-- One round, `src/mquery.c:618-657`: gives its end, the time `select` was told to wait, the packets handed to `sendto`.
The loop that sends is that of `process_out`. -/
def round (env : Env) (o : Opts) (start fuel : Nat) (r : Round) (k : Kept) : M Q (Verdict × TV × List (Out × Addr) × Kept) := do
  let tv ← Mdns.sleep r.sleepAt
  let (rc, k) ← takeIn env r.failed r.datagrams k
  if rc ≠ 0 then pure (.error, timeout o tv, [], k)
  else do
    let (rc, ms) ← processOut env r.clock r.accepted fuel 0
    pure (if rc ≠ 0 then .error else if ended o start k.lastRx r.over then .done else .go, timeout o tv, ms, k)

/-- Rounds one after another as long as the loop goes on: gives the last end and the times `select` was told to wait.  `src/mquery.c:619-658`. -/
def rounds (env : Env) (o : Opts) (start fuel : Nat) : List Round → Kept → M Q (Verdict × List TV × Kept)
  | [], k => pure (.go, [], k)
  | r :: rs, k => do
    let (v, tv, _, k) ← round env o start fuel r k
    if v = .go then do
      let (v, tvs, k) ← rounds env o start fuel rs k
      pure (v, tv :: tvs, k)
    else pure (v, [tv], k)

end Mdns.Mquery
