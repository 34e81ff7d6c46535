import Verif.Model.CLib

/-!
# Log levels, `libmdnsd/log.c`
-/

namespace Mdns.Log

open Mdns.CLib

/-- `INTERNAL_NOPRI`, `libmdnsd/log.c:47` and `syslog.h`. -/
def noPri : Int := 0x10

/-- `prioritynames`, `libmdnsd/log.c:49-67`; with glibc the table of the same name
in `syslog.h` is used instead, which has the same pairs (`err` and `error`, `warn`
and `warning` in the other order). -/
def priorityNames : List (Bytes × Int) :=
  [([0x61, 0x6C, 0x65, 0x72, 0x74], 1),                    -- alert
   ([0x63, 0x72, 0x69, 0x74], 2),                          -- crit
   ([0x64, 0x65, 0x62, 0x75, 0x67], 7),                    -- debug
   ([0x65, 0x6D, 0x65, 0x72, 0x67], 0),                    -- emerg
   ([0x65, 0x72, 0x72, 0x6F, 0x72], 3),                    -- error
   ([0x65, 0x72, 0x72], 3),                                -- err
   ([0x69, 0x6E, 0x66, 0x6F], 6),                          -- info
   ([0x6E, 0x6F, 0x6E, 0x65], noPri),                      -- none
   ([0x6E, 0x6F, 0x74, 0x69, 0x63, 0x65], 5),              -- notice
   ([0x70, 0x61, 0x6E, 0x69, 0x63], 0),                    -- panic
   ([0x77, 0x61, 0x72, 0x6E, 0x69, 0x6E, 0x67], 4),        -- warning
   ([0x77, 0x61, 0x72, 0x6E], 4)]                          -- warn

/-- `strncasecmp(a, b, n) == 0` for strings without NUL.  `libmdnsd/log.c:73-96`. -/
def ncaseEq (a b : Bytes) (n : Nat) : Bool := caseEq (a.take n) (b.take n)

/-- The loop over the names, `libmdnsd/log.c:77-85`; -1 if none matches. -/
def lookup (level : Bytes) : List (Bytes × Int) → Int
  | [] => -1
  | (nm, v) :: t =>
    if ncaseEq nm level (max nm.length level.length) then v else lookup level t

/-- `mdnsd_log_level`, `libmdnsd/log.c:73-96`: the value returned, and `loglevel`
afterwards.  `setlogmask` is left out. -/
def setLevel (loglevel : Int) (level : Bytes) : Int × Int :=
  let lvl := lookup level priorityNames
  let lvl := if lvl = -1 then atoi level else lvl
  (lvl, if lvl ≥ 0 then lvl else loglevel)

/-- `mdnsd_log` without syslog, `libmdnsd/log.c:140-162`: whether the message is
printed. -/
def shown (loglevel severity : Int) : Bool :=
  if loglevel = noPri then false else decide (severity ≤ loglevel)

end Mdns.Log
