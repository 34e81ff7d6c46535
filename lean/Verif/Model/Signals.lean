/-!
# Signals and the main loop of `mdnsd`

`src/mdnsd.c:248-264`, `:385-489`: the handlers may run between any two steps of the main loop.  The steps are those
that a handler can make a difference to; what the functions do that are called is not part of this model, only that and
for which interface they are called.  They are taken to return (see C61); `exit` in `setup_iface` is left out.
-/

namespace Mdns.Sig

/-- Where the main loop is.  `src/mdnsd.c:384-490`. -/
inductive Pc where
  /-- `while (running)`, `src/mdnsd.c:390` -/
  | head
  /-- the descriptors are collected, `src/mdnsd.c:391-417` -/
  | collect
  /-- in `select`, `src/mdnsd.c:419` -/
  | waiting
  /-- `select` has returned, `src/mdnsd.c:420`; `intr` if with `EINTR` -/
  | woken (intr : Bool)
  /-- `if (!running)`, `src/mdnsd.c:421` -/
  | ifRunning
  /-- `if (reload)`, `src/mdnsd.c:423` -/
  | ifReload
  /-- `sys_init`, `src/mdnsd.c:424` -/
  | lookup
  /-- the loop over the interfaces, of which these are left, `src/mdnsd.c:425-432` -/
  | reread (left : List Nat)
  /-- `pidfile`, `src/mdnsd.c:433` -/
  | pid
  /-- `reload = 0`, `src/mdnsd.c:434` -/
  | reset
  /-- the rest of the loop, `src/mdnsd.c:440-480` -/
  | work
  /-- in `mdnsd_conflict`, after its check of `reload`, `src/mdnsd.c:93` -/
  | conflict
  /-- after the loop, `src/mdnsd.c:483-487` -/
  | finish
  /-- `main` has returned -/
  | gone
deriving Repr, DecidableEq

/-- `running` and `reload`, `src/mdnsd.c:52-53`. -/
structure St where
  pc : Pc := .head
  running : Bool := true
  reload : Bool := false
deriving Repr, DecidableEq

/-- What can be seen.  `src/mdnsd.c:248-256`, `390-490`. -/
inductive Ev where
  /-- SIGHUP is delivered -/
  | hup
  /-- SIGINT, SIGQUIT or SIGTERM is delivered -/
  | term
  /-- `select` is entered -/
  | sleep
  /-- `select` returns by itself: the time is over, a packet has come, or an error other than `EINTR` -/
  | wake
  /-- the interfaces are looked up in order to reload; these are there -/
  | found (l : List Nat)
  /-- the records of an interface are dropped and its configuration is read -/
  | read (i : Nat)
  /-- the reload is over, and so is the wish for it -/
  | settled
  /-- interfaces are looked up or looked after -/
  | served
  /-- a conflict is reported -/
  | conflict
  /-- all interfaces are freed and `main` returns -/
  | ended
  /-- nothing -/
  | tau
deriving Repr, DecidableEq

/-- A handler returns into `select`, which then returns with `EINTR`, whatever `SA_RESTART`.  `src/mdnsd.c:419-420`. -/
def Pc.interrupt : Pc → Pc
  | .waiting => .woken true
  | p => p

/-- One step.  `src/mdnsd.c:384-490`. -/
inductive Step : St → Ev → St → Prop
  /-- `reconf`, `src/mdnsd.c:253-256` -/
  | hup (s : St) (h : s.pc ≠ .gone) : Step s .hup { s with reload := true, pc := s.pc.interrupt }
  /-- `done`, `src/mdnsd.c:248-251` -/
  | term (s : St) (h : s.pc ≠ .gone) : Step s .term { s with running := false, pc := s.pc.interrupt }
  | head (s : St) (h : s.pc = .head) : Step s .tau { s with pc := if s.running then .collect else .finish }
  | sleep (s : St) (h : s.pc = .collect) : Step s .sleep { s with pc := .waiting }
  | wake (s : St) (h : s.pc = .waiting) : Step s .wake { s with pc := .woken false }
  | woken (s : St) (b : Bool) (h : s.pc = .woken b) : Step s .tau { s with pc := if b || s.reload then .ifRunning else .work }
  | ifRunning (s : St) (h : s.pc = .ifRunning) : Step s .tau { s with pc := if s.running then .ifReload else .finish }
  | ifReload (s : St) (h : s.pc = .ifReload) : Step s .tau { s with pc := if s.reload then .lookup else .head }
  | lookup (s : St) (l : List Nat) (h : s.pc = .lookup) : Step s (.found l) { s with pc := .reread l }
  | read (s : St) (i : Nat) (l : List Nat) (h : s.pc = .reread (i :: l)) : Step s (.read i) { s with pc := .reread l }
  | readAll (s : St) (h : s.pc = .reread []) : Step s .tau { s with pc := .pid }
  | pid (s : St) (h : s.pc = .pid) : Step s .tau { s with pc := .reset }
  | reset (s : St) (h : s.pc = .reset) : Step s .settled { s with pc := .head, reload := false }
  | serve (s : St) (h : s.pc = .work) : Step s .served s
  /-- `mdnsd_conflict`, `src/mdnsd.c:88-93` -/
  | conflict (s : St) (h : s.pc = .work) : Step s .conflict { s with pc := if s.reload then .work else .conflict }
  /-- `src/mdnsd.c:94-95` -/
  | renumber (s : St) (h : s.pc = .conflict) : Step s .served { s with pc := .work, reload := true }
  | next (s : St) (h : s.pc = .work) : Step s .tau { s with pc := .head }
  | finish (s : St) (h : s.pc = .finish) : Step s .ended { s with pc := .gone }

/-- A sequence of steps.  `src/mdnsd.c:384-490`. -/
inductive Run : St → List Ev → St → Prop
  | nil (s : St) : Run s [] s
  | cons {s s1 s2 : St} {e : Ev} {es : List Ev} (h : Step s e s1) (r : Run s1 es s2) : Run s (e :: es) s2

end Mdns.Sig
