import Verif.Model.Mquery
import Verif.Model.MqueryMain

/-!
# What the callbacks of `mquery` do, and the program from start to end of its loop, `src/mquery.c:161-254` and `599-659`

The tag of a callback tells whether its argument is set: 0 is NULL, 1 anything else.
-/

namespace Mdns.Mquery

open Mdns.CLib

variable {Q : Type} [QOps Q]

/-! ### `mquery -D` -/

/-- The calls of `ans_dev` among the events, in order.  `src/mquery.c:256`, `612`. -/
def callsOf (log : List Event) : List (Answer × Bool) :=
  log.filterMap fun
    | .answer _ cb rr => some (rr, cb == 1)
    | _ => none

/-- The tables after these events.  `src/mquery.c:72-73`, `256-327`. -/
def tablesOf (np : Ntop) (log : List Event) : Tables := run np (callsOf log) {}

/-- The queries `ans_dev` makes, `src/mquery.c:256-327`: those for PTR records have an argument, all others none.  The
argument itself, a pointer into the cache, is only compared with NULL. -/
def devAct (np : Ntop) (log : List Event) : CbAct :=
  match log.getLast? with
  | some (.answer _ cb rr) =>
    let t := tablesOf np log.dropLast
    { reg := ((ansDev np t rr (cb == 1)).asked.drop t.asked.length).map fun (n, ty) => (n, ty, if ty = 12 then 1 else 0) }
  | _ => {}

/-- The world of `mquery -D`.  `src/mquery.c:256-327`, `612`. -/
def devEnv (np : Ntop) (ifaddrs : Nat → Option (List Ip)) : Env := { answer := devAct np, ifaddrs }

/-! ### Without `-D` -/

/-- `now` in `ans`, `src/mquery.c:205-211`; `clock` is `time(0)`.  The difference is converted to `int`, which keeps the
lower 32 bits. -/
def secondsLeft (ttl clock : Nat) : Int := if ttl = 0 then 0 else ((ttl : Int) - clock).bmod (2 ^ 32)

/-- `printf("%d")`.  `src/mquery.c:233-250`. -/
def decimalInt (n : Int) : Bytes := if n < 0 then 0x2D :: decimal n.natAbs else decimal n.natAbs

/-- The texts ` for `, ` seconds`, ` to ip `, ` to `, ` with ` and ` data`.  `src/mquery.c:233-250`. -/
abbrev txtFor : Bytes := [0x20, 0x66, 0x6F, 0x72, 0x20]
/-- See `txtFor`, `src/mquery.c:233-250`. -/
abbrev txtSeconds : Bytes := [0x20, 0x73, 0x65, 0x63, 0x6F, 0x6E, 0x64, 0x73]
/-- See `txtFor`, `src/mquery.c:233-238`. -/
abbrev txtToIp : Bytes := [0x20, 0x74, 0x6F, 0x20, 0x69, 0x70, 0x20]
/-- See `txtFor`, `src/mquery.c:242-246`. -/
abbrev txtTo : Bytes := [0x20, 0x74, 0x6F, 0x20]
/-- See `txtFor`, `src/mquery.c:250`. -/
abbrev txtWith : Bytes := [0x20, 0x77, 0x69, 0x74, 0x68, 0x20]
/-- See `txtFor`, `src/mquery.c:250`. -/
abbrev txtData : Bytes := [0x20, 0x64, 0x61, 0x74, 0x61]

/-- `type2str`, `src/mquery.c:161-200`. -/
def type2str (type : Nat) : Bytes :=
  let paren (s : Bytes) := s ++ [0x20, 0x28] ++ decimal type ++ [0x29]
  if type = 1 then paren [0x41]
  else if type = 2 then paren [0x4E, 0x53]
  else if type = 5 then paren [0x43, 0x4E, 0x41, 0x4D, 0x45]
  else if type = 12 then paren [0x54, 0x52]
  else if type = 16 then paren [0x54, 0x58, 0x54]
  else if type = 28 then paren [0x41, 0x41, 0x41, 0x41]
  else if type = 33 then paren [0x53, 0x52, 0x56]
  else if type = 255 then paren [0x41, 0x4E, 0x59]
  else (paren [0x55, 0x4E, 0x4B, 0x4E, 0x4F, 0x57, 0x4E]).take 19

/-- What `ans` prints with `-s`, `src/mquery.c:230-251`.  `rdname` is set for PTR and SRV records. -/
def simpleText (np : Ntop) (a : Answer) (clock : Nat) : Bytes :=
  let secs := txtFor ++ decimalInt (secondsLeft a.ttl clock) ++ txtSeconds
  if a.type = 1 then [0x41, 0x20] ++ a.name ++ secs ++ txtToIp ++ np.v4 a.ip ++ [0x0A]
  else if a.type = 28 then [0x41, 0x41, 0x41, 0x41, 0x20] ++ a.name ++ secs ++ txtToIp ++ np.v6 a.ip6 ++ [0x0A]
  else if a.type = 12 then [0x50, 0x54, 0x52, 0x20] ++ a.name ++ secs ++ txtTo ++ a.rdname.getD [] ++ [0x0A]
  else if a.type = 33 then
    [0x53, 0x52, 0x56, 0x20] ++ a.name ++ secs ++ txtTo ++ a.rdname.getD [] ++ [0x3A] ++ decimal a.port ++ [0x0A]
  else type2str a.type ++ [0x20] ++ a.name ++ secs ++ txtWith ++ decimal (a.rdata.getD []).length ++ txtData ++ [0x0A]

/-- What `ans` prints without `-s`, `src/mquery.c:213-228`. -/
def browseText (np : Ntop) (a : Answer) : Bytes :=
  if a.type ≠ 12 then []
  else [0x2B, 0x20] ++ a.rdname.getD [] ++ [0x20, 0x28] ++ (if a.ip ≠ ip4Zero then np.v4 a.ip else np.v6 a.ip6) ++ [0x29, 0x0A]

/-- The query `ans` makes, `src/mquery.c:219-220`. -/
def ansAct (simple : Bool) (log : List Event) : CbAct :=
  match log.getLast? with
  | some (.answer _ cb rr) => { reg := if simple = false ∧ rr.type = 12 ∧ cb = 0 then [(rr.rdname.getD [], 12, 1)] else [] }
  | _ => {}

/-- The world of `mquery` without `-D`; `simple` is `-s`.  `src/mquery.c:202-254`, `615`. -/
def ansEnv (simple : Bool) (ifaddrs : Nat → Option (List Ip)) : Env := { answer := ansAct simple, ifaddrs }

/-- The texts printed by the calls of `ans` among the events, in order; `clock` gives `time(0)` in each.  `src/mquery.c:202-254`. -/
def textsOf (np : Ntop) (simple : Bool) (clock : Nat → Nat) (log : List Event) : List Bytes :=
  (callsOf log).zipIdx.map fun (a, i) => if simple then simpleText np a.1 (clock i) else browseText np a.1

/-! ### The program -/

open M in
/-- `mquery` from making the daemon to the end of the loop, `src/mquery.c:599-659`, as far as it concerns the library:
the family is set, the query made with no argument, and then come the rounds. -/
def program (env : Env) (family : Family) (name : Bytes) (type : Nat) (o : Opts) (start fuel : Nat) (rs : List Round) (k : Kept) :
    M Q (Verdict × List TV × Kept) := do
  let _ ← step env (.setFamily family)
  let _ ← step env (.query name type (some 0))
  rounds env o start fuel rs k

end Mdns.Mquery
