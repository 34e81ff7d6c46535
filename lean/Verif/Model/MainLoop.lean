import Verif.Model.DaemonTypes

/-!
# The main loop of `mdnsd`, its waiting times

`src/mdnsd.c:390-481`.
-/

namespace Mdns.MainLoop

/-- `SYS_INTERVAL`, `src/mdnsd.c:50`. -/
def sysInterval : Nat := 10

/-- The variables `tv` and `timeout` of `main`, `src/mdnsd.c:310-313`, and the static variable `before` of `sys_timeout`,
`src/mdnsd.c:220`, of which only the seconds are used. -/
structure St where
  tv : TV := {}
  timeout : Nat := 0
  before : Nat := 0
deriving DecidableEq, Repr

/-- `sys_timeout`, `src/mdnsd.c:218-235`; `now` is the monotonic clock in seconds. -/
def sysTimeout (now : Nat) (s : St) : Bool × St :=
  if s.timeout = 0 then (false, { s with before := now, timeout := sysInterval })
  else if s.before + sysInterval ≤ now then (true, { s with before := now })
  else (false, s)

/-- `if (tv.tv_sec > next.tv_sec) tv = next`, `src/mdnsd.c:466-467`, `:476-477`. -/
def shorter (tv next : TV) : TV := if tv.sec > next.sec then next else tv

/-- How `select` ends, `src/mdnsd.c:419-438`.  `left` is what it leaves in `tv`: on Linux the time that was left. -/
inductive Ev where
  /-- A signal that does not end the daemon, or the configuration is read again: nothing is sent or received,
  `src/mdnsd.c:420-438`. -/
  | again (left : TV) (reload : Bool)
  /-- The contexts are looked after, `src/mdnsd.c:440-480`: `now` is the clock of `sys_timeout`, `changed` whether netlink
  reported a change, and `nexts` are the waiting times which the successful calls of `mdnsd_step` gave, in order. -/
  | pass (left : TV) (now : Nat) (changed : Bool) (nexts : List TV)
deriving DecidableEq, Repr

/-- One round of the loop, `src/mdnsd.c:390-481`; also tells whether the interfaces were looked up (`sys_init`).  Which
sockets are waited for is in `Model/Waiting`. -/
def round (s : St) : Ev → Bool × St
  | .again left reload => (reload, { s with tv := left })
  | .pass left now changed nexts =>
    let (due, s) := sysTimeout now s
    (changed || due, { s with tv := nexts.foldl shorter { left with sec := s.timeout } })

end Mdns.MainLoop
