import Verif.Model.Reload

/-!
# Finding the service files, `src/conf.c` and `src/mdnsd.c`

`stat`, `glob` and `daemon` belong to the C library and the kernel.  The definitions state what Linux and glibc do:
`glob` takes the pattern component by component; a component with wildcards is compared with the names in the directory,
another one is taken as it is (without its backslashes).
-/

namespace Mdns.Glob

open Mdns Mdns.Conf

/-- What the kernel and the user database tell.  A place is the names of directories from the root on; links, `.` and
`..` are left to these functions.  `stat`, `glob` and `fopen`, `src/conf.c:304-349`, `124`. -/
structure Files where
  /-- `stat` succeeds, when the path does not end with a slash -/
  there : List Bytes → Bool
  /-- `S_ISDIR` -/
  isDir : List Bytes → Bool
  /-- the names in a directory that can be read, with `.` and `..` -/
  list : List Bytes → Option (List Bytes)
  /-- what is read after `fopen`, which opens directories as well: nothing is read from these -/
  read : List Bytes → Option Bytes
  /-- the current directory -/
  cwd : List Bytes
  /-- the home directory of a user; of the empty name, `HOME` -/
  home : Bytes → Option Bytes

/-- `daemon (0, 0)`, `src/mdnsd.c:376-382`: the current directory becomes the root.  It does not fail. -/
def started (background : Bool) (f : Files) : Files := if background then { f with cwd := [] } else f

/-- What is between slashes.  In the C library (`glob`), called at `src/conf.c:339`. -/
def pieces : Bytes → List Bytes
  | [] => [[]]
  | c :: cs =>
    if c = 0x2F then [] :: pieces cs
    else match pieces cs with
      | [] => [[c]]
      | p :: ps => (c :: p) :: ps

/-- The names in a path.  In the C library (`glob`), called at `src/conf.c:339`. -/
def comps (p : Bytes) : List Bytes := (pieces p).filter (· ≠ [])

/-- Where a path leads.  In the C library (`glob`), called at `src/conf.c:339`. -/
def place (f : Files) (p : Bytes) : List Bytes := if p.head? = some 0x2F then comps p else f.cwd ++ comps p

/-! ### `fnmatch`, with `FNM_PERIOD` -/

/-- A part of a pattern: `*`, `?`, a character, a bracket expression (negated or not) of ranges.  Classes such as
`[:alpha:]` are left out.  In the C library (`glob`), called at `src/conf.c:339`. -/
inductive Wild where
  | any
  | one
  | lit (c : UInt8)
  | set (neg : Bool) (l : List (UInt8 × UInt8))
deriving DecidableEq, Repr

/-- The ranges up to `]`, and what follows.  In the C library (`glob`), called at `src/conf.c:339`. -/
def bracket : Bytes → List (UInt8 × UInt8) → Option (List (UInt8 × UInt8) × Bytes)
  | [], _ => none
  | a :: 0x2D :: b :: r, acc =>
    if a = 0x5D ∧ acc ≠ [] then some (acc, 0x2D :: b :: r)
    else if b = 0x5D then some ((0x2D, 0x2D) :: (a, a) :: acc, r)
    else bracket r ((a, b) :: acc)
  | a :: r, acc => if a = 0x5D ∧ acc ≠ [] then some (acc, r) else bracket r ((a, a) :: acc)

/-- The parts of a pattern; every round takes a character, so `p.length` rounds are enough.  In the C library (`glob`), called at `src/conf.c:339`. -/
def wilds : Nat → Bytes → List Wild
  | 0, _ => []
  | _, [] => []
  | n + 1, c :: p =>
    if c = 0x2A then .any :: wilds n p
    else if c = 0x3F then .one :: wilds n p
    else if c = 0x5C then match p with
      | [] => [.lit c]
      | e :: p => .lit e :: wilds n p
    else if c = 0x5B then
      let neg := p.head? = some 0x21 ∨ p.head? = some 0x5E
      match bracket (if neg then p.tail else p) [] with
      | some (l, r) => .set neg l :: wilds n r
      | none => .lit c :: wilds n p
    else .lit c :: wilds n p

/-- Some end of the string satisfies `f`.  In the C library (`glob`), called at `src/conf.c:339`. -/
def somewhere (f : Bytes → Bool) : Bytes → Bool
  | [] => f []
  | c :: s => f (c :: s) || somewhere f s

/-- The string fits the parts. In the C library (`glob`), called at `src/conf.c:339`. -/
def fits : List Wild → Bytes → Bool
  | [], s => s.isEmpty
  | .any :: w, s => somewhere (fits w) s
  | .one :: w, s => match s with
    | [] => false
    | _ :: s => fits w s
  | .lit c :: w, s => match s with
    | [] => false
    | d :: s => c = d && fits w s
  | .set neg l :: w, s => match s with
    | [] => false
    | d :: s => (l.any fun r => decide (r.1 ≤ d ∧ d ≤ r.2)) != neg && fits w s

/-- `fnmatch`: a period at the beginning has to be there in the pattern.  In the C library (`glob`), called at `src/conf.c:339`. -/
def fnmatch (p s : Bytes) : Bool :=
  (s.head? ≠ some 0x2E || (wilds p.length p).head? = some (.lit 0x2E)) && fits (wilds p.length p) s

/-! ### `glob`, with `GLOB_ERR` and `GLOB_TILDE` -/

/-- A component has wildcards.  In the C library (`glob`), called at `src/conf.c:339`. -/
def special : Bytes → Bool
  | [] => false
  | c :: p => c = 0x2A || c = 0x3F || (c = 0x5B && p.contains 0x5D) || special p

/-- A component without its backslashes.  In the C library (`glob`), called at `src/conf.c:339`. -/
def unescape : Bytes → Bytes
  | [] => []
  | [c] => [c]
  | c :: d :: p => if c = 0x5C then d :: unescape p else c :: unescape (d :: p)

/-- The places that fit the components, from a place on; `none` if a directory cannot be read.  In the C library (`glob`), called at `src/conf.c:339`. -/
def find (f : Files) : List Bytes → List Bytes → Option (List (List Bytes))
  | at_, [] => some [at_]
  | at_, c :: cs =>
    if special c then
      match f.list at_ with
      | none => if f.isDir at_ then none else some []
      | some names => ((names.filter (fnmatch c)).mapM fun n => find f (at_ ++ [n]) cs).map List.flatten
    else find f (at_ ++ [unescape c]) cs

/-- `strcmp` is not positive.  In the C library (`glob`), called at `src/conf.c:339`. -/
def leB : Bytes → Bytes → Bool
  | [], _ => true
  | _ :: _, [] => false
  | a :: x, b :: y => a < b || (a = b && leB x y)

/-- The path of a place.  In the C library (`glob`), called at `src/conf.c:339`. -/
def spell : List Bytes → Bytes
  | [] => []
  | c :: cs => 0x2F :: (c ++ spell cs)

/-- Insertion in order. In the C library (`glob`), called at `src/conf.c:339`. -/
def insertB (p : List Bytes) : List (List Bytes) → List (List Bytes)
  | [] => [p]
  | q :: l => if leB (spell p) (spell q) then p :: q :: l else q :: insertB p l

/-- The results are in the order of `strcoll`, which is `strcmp` as `setlocale` is not called.  In the C library (`glob`), called at `src/conf.c:339`. -/
def sortB : List (List Bytes) → List (List Bytes)
  | [] => []
  | p :: l => insertB p (sortB l)

/-- A tilde at the beginning is the home directory of the user whose name follows, or else stays.  In the C library (`glob`), called at `src/conf.c:339`. -/
def tilde (f : Files) (pat : Bytes) : Bytes :=
  match pat with
  | 0x7E :: r =>
    match f.home ((pieces r).headD []) with
    | some h => h ++ r.drop ((pieces r).headD []).length
    | none => pat
  | _ => pat

/-- `glob`: `none` if it does not return 0.  In the C library (`glob`), called at `src/conf.c:339`. -/
def glob (f : Files) (pat : Bytes) : Option (List (List Bytes)) :=
  let p := tilde f pat
  match find f (if p.head? = some 0x2F then [] else f.cwd) (comps p) with
  | none => none
  | some [] => none
  | some l => some (sortB l)

/-! ### `conf_init` -/

/-- `*.service`.  `src/conf.c:321`. -/
def dotService : Bytes := [0x2E, 0x73, 0x65, 0x72, 0x76, 0x69, 0x63, 0x65]

/-- `pat`, `src/conf.c:318-321`; `path` is not empty. -/
def pattern (path : Bytes) : Bytes :=
  path ++ (if path.getLast? ≠ some 0x2F then [0x2F] else []) ++ (0x2A :: dotService)

/-- `stat` of the path, `src/conf.c:304`: `none` if it fails, or else `S_ISDIR`. -/
def stat (f : Files) (path : Bytes) : Option Bool :=
  if path = [] then none
  else if f.isDir (place f path) then some true
  else if f.there (place f path) ∧ path.getLast? ≠ some 0x2F then some false
  else none

/-- What `conf_init` finds, `src/conf.c:304-349`. -/
def source (f : Files) (path : Bytes) : Source :=
  match stat f path with
  | none => .missing
  | some true => match glob f (pattern path) with
    | none => .missing
    | some l => .files (l.map f.read)
  | some false => .files [f.read (place f path)]

end Mdns.Glob
