import Verif.Model.CLib

/-!
# The pid file, `lib/pidfile.c`

Called by `mdnsd` when it starts and whenever the configuration has been read again (`src/mdnsd.c:387`, `:433`), always with
the same name; so there is one file.
-/

namespace Mdns.Pid

/-- The file, if there is one, and the static variables of `lib/pidfile.c:47-48`: whether `pidfile_path` is set, and
`pidfile_pid`; and how often `pidfile_cleanup` was registered with `atexit`. -/
structure St where
  file : Option Bytes := none
  path : Bool := false
  pid : Nat := 0
  hooks : Nat := 0
deriving Repr, DecidableEq

/-- Which of the system calls succeed: `access` (if there is a file), `asprintf`, `fopen`, `fprintf` and `fflush`,
`unlink`, `atexit`.  `lib/pidfile.c:55-139`. -/
structure Io where
  access : Bool := true
  asprintf : Bool := true
  fopen : Bool := true
  print : Bool := true
  unlink : Bool := true
  atexit : Bool := true
deriving Repr, DecidableEq

/-- What is written, `lib/pidfile.c:98`. -/
def text (pid : Nat) : Bytes := CLib.decimal pid ++ [0x0A]

/-- `unlink`.  `lib/pidfile.c:131-139`. -/
def unlink (ok : Bool) (s : St) : St := if ok then { s with file := none } else s

/-- `lib/pidfile.c:81-127`: the file is written; `already` is `atexit_already`.  An `asprintf` that fails for want of memory
leaves NULL in `pidfile_path`, as those of glibc, musl and the BSDs do. -/
def write (io : Io) (self : Nat) (already : Bool) (s : St) : Bool × St :=
  if !io.asprintf then (false, { s with path := false })
  else if !io.fopen then (false, { s with path := false })
  else
    let s := { s with file := some [] }
    if !io.print then (false, { unlink io.unlink s with path := false })
    else
      let s := { s with file := some (text self), path := true }
      if already then (true, s)
      else if !io.atexit then (false, { unlink io.unlink s with path := false, pid := 0 })
      else (true, { s with pid := self, hooks := s.hooks + 1 })

/-- `pidfile`, `lib/pidfile.c:55-127`, in the process `self`; true for 0, false for -1.  `utimensat` changes only the
time of the file. -/
def pidfile (io : Io) (self : Nat) (s : St) : Bool × St :=
  if s.path then
    if s.file.isSome && io.access && self == s.pid then (true, s)
    else write io self true s
  else write io self false s

/-- `pidfile_cleanup`, `lib/pidfile.c:129-137`. -/
def cleanup (ok : Bool) (self : Nat) (s : St) : St :=
  if s.path && s.pid == self then { unlink ok s with path := false } else s

/-- The handlers run when the process exits.  `lib/pidfile.c:131-139`. -/
def exit (ok : Bool) (self : Nat) (s : St) : St := go s.hooks s
where
  go : Nat → St → St
  | 0, s => s
  | n + 1, s => go n (cleanup ok self s)

/-- What happens to the file: a call in the process, or someone else changes or removes it.  `lib/pidfile.c:55-139`, `src/mdnsd.c:387`, `433`. -/
inductive Op where
  | call (io : Io)
  | other (f : Option Bytes)

/-- The state after a history, and what the last call gave.  `src/mdnsd.c:387`, `433`. -/
def run (self : Nat) : List Op → Option Bool × St → Option Bool × St
  | [], s => s
  | .call io :: rest, s => run self rest ((fun p => (some p.1, p.2)) (pidfile io self s.2))
  | .other f :: rest, s => run self rest (s.1, { s.2 with file := f })

end Mdns.Pid
