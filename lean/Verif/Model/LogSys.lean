import Verif.Model.Log

/-!
# Where messages go, `libmdnsd/log.c`

`mdnsd_log_level`, `mdnsd_log_open` and `mdnsd_log` with the mask of the C library.  That the system keeps what `syslog`
is given, and that files can be written, is assumed.
-/

namespace Mdns.Log

/-- `do_syslog` and `loglevel`, `libmdnsd/log.c:70-71`, and the mask of `syslog`, which is `LOG_UPTO(LOG_DEBUG)` at
first. -/
structure Logger where
  syslog : Bool := false
  level : Int := 5
  mask : Nat := 0xFF
deriving Repr, DecidableEq

/-- `LOG_UPTO`, `(1 << (pri + 1)) - 1` in `syslog.h`, in 32 bits: `none` where the shift is not defined.  For `libmdnsd/log.c:93`, `101`. -/
def upTo (level : Int) : Option Nat :=
  if 0 ≤ level ∧ level < 30 then some (2 ^ (level.toNat + 1) - 1) else none

/-- `setlogmask(LOG_UPTO(loglevel))`, `libmdnsd/log.c:93`, `101`; a mask of 0 would change nothing. -/
def setMask (g : Logger) : Option Logger :=
  match upTo g.level with
  | none => none
  | some m => some (if m = 0 then g else { g with mask := m })

/-- `mdnsd_log_level`, `libmdnsd/log.c:73-96`, with the mask. -/
def logLevel (g : Logger) (level : Bytes) : Option Logger :=
  let g := { g with level := (setLevel g.level level).2 }
  if g.syslog then setMask g else some g

/-- `mdnsd_log_open`, `libmdnsd/log.c:98-103`. -/
def logOpen (g : Logger) : Option Logger :=
  match setMask g with
  | none => none
  | some g => some { g with syslog := true }

/-- Where a message goes.  `libmdnsd/log.c:140-162`. -/
inductive Dest where
  | nowhere
  | stdout
  | stderr
  | syslog
deriving Repr, DecidableEq

/-- `mdnsd_log`, `libmdnsd/log.c:140-162`; `vsyslog` drops what is not in the mask. -/
def log (g : Logger) (severity : Nat) : Dest :=
  if g.level = noPri then .nowhere
  else if g.syslog then
    if g.mask.testBit severity then .syslog else .nowhere
  else if (severity : Int) ≤ g.level then
    if severity > 4 then .stdout else .stderr
  else .nowhere

/-- A call that changes what is logged.  `libmdnsd/log.c:73-103`. -/
inductive Call where
  | level (s : Bytes)
  | openlog
deriving Repr, DecidableEq

/-- A history of calls; `none` for undefined behaviour.  `libmdnsd/log.c:73-103`. -/
def calls : List Call → Logger → Option Logger
  | [], g => some g
  | .level s :: t, g =>
    match logLevel g s with
    | none => none
    | some g => calls t g
  | .openlog :: t, g =>
    match logOpen g with
    | none => none
    | some g => calls t g

end Mdns.Log
