import Verif.Model.Log

/-!
# Options of the programs, `src/mdnsd.c` and `src/mquery.c`

`getopt` belongs to the C library.  The definition states what glibc does: by default options are
found anywhere on the command line up to `--`; with `POSIXLY_CORRECT` in the environment, and with
other libraries, they end at the first operand.  Messages to stderr are left out.
-/

namespace Mdns.Opt

open Mdns.CLib

/-- What `getopt` returns: the character and `optarg`.  `src/mdnsd.c:318-322`, `src/mquery.c:527-534`. -/
abbrev Got := UInt8 × Option Bytes

/-- Whether a character is an option, and if so whether it takes an argument.  `src/mdnsd.c:318-322`, `src/mquery.c:527-534`. -/
abbrev Spec := UInt8 → Option Bool

/-- An option is being read: `w` are the characters left in the word, `rest` the words behind it.
Unknown options and missing arguments give `?`.  The second part are the words left.  `src/mdnsd.c:318-322`, `src/mquery.c:527-534`. -/
def cluster (spec : Spec) : Bytes → List Bytes → List Got × List Bytes
  | [], rest => ([], rest)
  | c :: w, rest =>
    match spec c with
    | none => let (g, r) := cluster spec w rest; ((0x3F, none) :: g, r)
    | some false => let (g, r) := cluster spec w rest; ((c, none) :: g, r)
    | some true =>
      if w ≠ [] then ([(c, some w)], rest)
      else match rest with
        | [] => ([(0x3F, none)], [])
        | a :: rest => ([(c, some a)], rest)

theorem cluster_le (spec : Spec) : ∀ (w : Bytes) (rest : List Bytes), (cluster spec w rest).2.length ≤ rest.length
  | [], rest => Nat.le_refl _
  | c :: w, rest => by
    unfold cluster
    split
    · exact cluster_le spec w rest
    · exact cluster_le spec w rest
    · split
      · exact Nat.le_refl _
      · split
        · exact Nat.le_refl _
        · simp

/-- `getopt` called until it returns -1: the values it returned, and the operands
(`argv[optind]`, ..).  `posix`: options end at the first operand.  `src/mdnsd.c:318-322`, `src/mquery.c:527-534`. -/
def getopt (posix : Bool) (spec : Spec) : List Bytes → List Got × List Bytes
  | [] => ([], [])
  | [0x2D, 0x2D] :: rest => ([], rest)
  | (0x2D :: c :: w) :: rest =>
    let k := cluster spec (c :: w) rest
    let (g, ops) := getopt posix spec k.2
    (k.1 ++ g, ops)
  | a :: rest =>
    if posix then ([], a :: rest)
    else let (g, ops) := getopt posix spec rest; (g, a :: ops)
termination_by args => args.length
decreasing_by
  · exact Nat.lt_succ_of_le (cluster_le ..)
  · simp

/-- The options of `mdnsd`, `src/mdnsd.c:318-322` (with `HAVE_SO_BINDTODEVICE`): `H:hi:l:nst:v?`. -/
def mdnsdSpec : Spec := fun c =>
  if c = 0x48 ∨ c = 0x69 ∨ c = 0x6C ∨ c = 0x74 then some true
  else if c = 0x68 ∨ c = 0x6E ∨ c = 0x73 ∨ c = 0x76 ∨ c = 0x3F then some false
  else none

/-- The variables set by the options, `src/mdnsd.c:55-60` and `libmdnsd/log.c:71`. -/
structure Opts where
  hostnm : Option Bytes := none
  ifname : Option Bytes := none
  loglevel : Int := 5
  background : Bool := true
  logging : Int := 1
  ttl : Int := 255
deriving DecidableEq, Repr

/-- The `switch`, `src/mdnsd.c:323-365`: the exit code if the program ends here. -/
def mdnsdOpt (o : Opts) (g : Got) : Opts ⊕ Nat :=
  let arg := g.2.getD []
  if g.1 = 0x48 then .inl { o with hostnm := g.2 }
  else if g.1 = 0x68 ∨ g.1 = 0x3F then .inr 0
  else if g.1 = 0x69 then .inl { o with ifname := g.2 }
  else if g.1 = 0x6C then
    let (lvl, l) := Log.setLevel o.loglevel arg
    if lvl = -1 then .inr 1 else .inl { o with loglevel := l }
  else if g.1 = 0x6E then .inl { o with background := false, logging := o.logging - 1 }
  else if g.1 = 0x73 then .inl { o with logging := o.logging + 1 }
  else if g.1 = 0x74 then
    if atoi arg < 1 ∨ atoi arg > 255 then .inr 1 else .inl { o with ttl := atoi arg }
  else if g.1 = 0x76 then .inr 0
  else .inl o

/-- The loop, `src/mdnsd.c:318-366`. -/
def mdnsdOpts (o : Opts) : List Got → Opts ⊕ Nat
  | [] => .inl o
  | g :: gs => match mdnsdOpt o g with
    | .inl o => mdnsdOpts o gs
    | .inr n => .inr n

/-- `/etc/mdns.d`.  `src/mdnsd.c:371`. -/
def defaultPath : Bytes := [0x2F, 0x65, 0x74, 0x63, 0x2F, 0x6D, 0x64, 0x6E, 0x73, 0x2E, 0x64]

/-- How `mdnsd` goes on after its options.  `src/mdnsd.c:318-382`. -/
inductive Start where
  /-- It ends with this exit code. -/
  | exits (code : Nat)
  /-- It starts: the variables, `path`, and whether `mdnsd_log_open` is called. -/
  | runs (o : Opts) (path : Bytes) (syslog : Bool)
deriving DecidableEq, Repr

/-- `main` up to `mdnsd_log_open`, `src/mdnsd.c:308-374`; `args` are `argv[1]`, .. -/
def mdnsd (posix : Bool) (args : List Bytes) : Start :=
  let (g, ops) := getopt posix mdnsdSpec args
  match mdnsdOpts {} g with
  | .inr n => .exits n
  | .inl o => .runs o (ops.headD defaultPath) (decide (o.logging > 0))

/-- The options of `mquery`, `src/mquery.c:527-534` (with IPv6 and `HAVE_SO_BINDTODEVICE`): `h?DTi:6d:l:st:vw:`. -/
def mquerySpec : Spec := fun c =>
  if c = 0x69 ∨ c = 0x64 ∨ c = 0x6C ∨ c = 0x74 ∨ c = 0x77 then some true
  else if c = 0x68 ∨ c = 0x3F ∨ c = 0x44 ∨ c = 0x54 ∨ c = 0x36 ∨ c = 0x73 ∨ c = 0x76 then some false
  else none

/-- The variables of `mquery`, `src/mquery.c:518-523` and the static ones. -/
structure QOpts where
  ipv6 : Bool := false
  devmode : Bool := false
  terminate : Bool := false
  detail : Option Bytes := none
  ifname : Option Bytes := none
  loglevel : Int := 5
  simple : Bool := false
  type : Int := 12
  wait : Int := 0
deriving DecidableEq, Repr

/-- The `switch`, `src/mquery.c:535-588`. -/
def mqueryOpt (o : QOpts) (g : Got) : QOpts ⊕ Nat :=
  let arg := g.2.getD []
  if g.1 = 0x68 ∨ g.1 = 0x3F then .inr 0
  else if g.1 = 0x36 then .inl { o with ipv6 := true }
  else if g.1 = 0x44 then .inl { o with devmode := true }
  else if g.1 = 0x54 then .inl { o with terminate := true }
  else if g.1 = 0x64 then .inl { o with detail := g.2, devmode := true }
  else if g.1 = 0x69 then .inl { o with ifname := g.2 }
  else if g.1 = 0x6C then
    let (lvl, l) := Log.setLevel o.loglevel arg
    if lvl = -1 then .inr 1 else .inl { o with loglevel := l }
  else if g.1 = 0x73 then .inl { o with simple := true }
  else if g.1 = 0x74 then .inl { o with type := atoi arg }
  else if g.1 = 0x76 then .inr 0
  else if g.1 = 0x77 then .inl { o with wait := atoi arg }
  else .inr 1

/-- The loop, `src/mquery.c:527-589`. -/
def mqueryOpts (o : QOpts) : List Got → QOpts ⊕ Nat
  | [] => .inl o
  | g :: gs => match mqueryOpt o g with
    | .inl o => mqueryOpts o gs
    | .inr n => .inr n

/-- `main` up to `getifname`, `src/mquery.c:510-592`: the exit code, or the variables and `name` (`none`: `DISCO_NAME`). -/
def mquery (posix : Bool) (args : List Bytes) : (QOpts × Option Bytes) ⊕ Nat :=
  let (g, ops) := getopt posix mquerySpec args
  match mqueryOpts {} g with
  | .inr n => .inr n
  | .inl o => .inl (o, ops.head?)

end Mdns.Opt
