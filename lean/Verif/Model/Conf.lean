import Verif.Model.CLib

/-!
# Service files and host names, `src/conf.c` and `src/mdnsd.c`
-/

namespace Mdns.Conf

open Mdns.CLib

/-- The bytes of a keyword.  `type`, `src/conf.c:94`. -/
abbrev kwType : Bytes := [0x74, 0x79, 0x70, 0x65]
/-- `name`, `src/conf.c:97`. -/
abbrev kwName : Bytes := [0x6E, 0x61, 0x6D, 0x65]
/-- `port`, `src/conf.c:100`. -/
abbrev kwPort : Bytes := [0x70, 0x6F, 0x72, 0x74]
/-- `target`, `src/conf.c:107`. -/
abbrev kwTarget : Bytes := [0x74, 0x61, 0x72, 0x67, 0x65, 0x74]
/-- `cname`, `src/conf.c:110`. -/
abbrev kwCname : Bytes := [0x63, 0x6E, 0x61, 0x6D, 0x65]
/-- `txt`, `src/conf.c:113`. -/
abbrev kwTxt : Bytes := [0x74, 0x78, 0x74]

/-- `struct conf_srec`, `src/conf.c:43-54`; NULL pointers are `none`, `txt` is
the first `txt_num` entries of the array. -/
structure SRec where
  type : Option Bytes := none
  name : Option Bytes := none
  port : Int := 0
  target : Option Bytes := none
  cname : Option Bytes := none
  txt : List Bytes := []
deriving Repr, DecidableEq

/-- Result of reading: a value, or an access outside the line buffer.  `src/conf.c:57-116`. -/
inductive Rd (α : Type) where
  | ok (a : α)
  | oob
deriving Repr, DecidableEq

/-- `chomp`, `src/conf.c:57-71`, on a string: trailing newlines are removed.
The loop has no lower bound, so if the string has newlines only the byte before
the buffer is read.  `none` is NULL (empty string). -/
def chomp (s : Bytes) : Rd (Option Bytes) :=
  if s = [] then .ok none
  else if s.all (· == 0x0A) then .oob
  else .ok (some (s.reverse.dropWhile (· == 0x0A)).reverse)

/-- `strsep(&arg, " \t")` on a string: the token, and the rest after the
separator (`none` if there is no separator).  `src/conf.c:88`. -/
def strsep (s : Bytes) : Bytes × Option Bytes :=
  let tok := s.takeWhile (fun c => !(c == 0x20 || c == 0x09))
  match s.drop tok.length with
  | [] => (tok, none)
  | _ :: r => (tok, some r)

/-- `read_line`, `src/conf.c:78-116`.  `line` is the C string in the buffer.
Memory allocation does not fail. -/
def readLine (line : Bytes) (s : SRec) : Rd SRec :=
  match chomp line with
  | .oob => .oob
  | .ok none => .ok s
  | .ok (some l) =>
    if l.head? = some 0x23 then .ok s
    else
      match strsep l with
      | (_, none) => .ok s
      | (tok, some arg) =>
        if tok = kwType then .ok { s with type := some arg }
        else if tok = kwName then .ok { s with name := some arg }
        else if tok = kwPort then .ok { s with port := toInt32 (strtol arg) }
        else if tok = kwTarget then .ok { s with target := some arg }
        else if tok = kwCname then .ok { s with cname := some arg }
        else if tok = kwTxt ∧ s.txt.length < 42 then .ok { s with txt := s.txt ++ [arg] }
        else .ok s

/-- The loop of `parse`, `src/conf.c:128-129`, over the bytes of the file left.
`line` has 256 bytes; `read_line` sees the C string in it.  Every `fgets` takes
at least one byte, so `file.length` rounds are enough. -/
def parseLoop : Nat → Bytes → SRec → Rd SRec
  | 0, _, s => .ok s
  | n + 1, f, s =>
    if f = [] then .ok s
    else
      match readLine (cstr (fgets 256 f).1) s with
      | .oob => .oob
      | .ok s => parseLoop n (fgets 256 f).2 s

/-- `parse`, `src/conf.c:118-134`, of a file that can be opened, into the zeroed
record of `load` (194-195). -/
def parse (file : Bytes) : Rd SRec := parseLoop file.length file {}

/-- `fqdn`, `src/conf.c:137-142`: the string in `buf` afterwards. -/
def fqdn (len : Nat) (name : Bytes) : Bytes :=
  snprintf (name ++ if name.getLast? = some 0x2E then [] else [0x2E]) len

/-- The host name, `src/conf.c:283-302`, with `_POSIX_HOST_NAME_MAX` = 255.
`base` is the name given with `-H` or by `gethostname` (which is taken to end
the string in the buffer).  `hostid` is not negative. -/
def hostname (base : Bytes) (hostid : Nat) : Bytes :=
  let h := strlcpy base 255
  if hostid > 1 then
    let suffix := snprintf (0x2D :: decimal hostid) 16
    let slen := (0x2D :: decimal hostid).length + 1
    let hlen := if h.length + slen ≥ 255 then 255 - slen else h.length
    h.take hlen ++ strlcpy suffix (255 - hlen)
  else h

/-- The bytes of `.local.`.  `src/conf.c:205-213`. -/
abbrev dotLocal : Bytes := [0x2E, 0x6C, 0x6F, 0x63, 0x61, 0x6C, 0x2E]

/-- The SRV target without a `target` line, `src/conf.c:213`. -/
def target (hostname : Bytes) : Bytes := snprintf (hostname ++ dotLocal) 256

/-- The counters of `src/mdnsd.c` which conflicts change: `hostid` of every
interface, and the flag `reload`.  `used` is not in the code: the number with which
`conf_init` was last called for an interface.  `src/mdnsd.c:53`, `88-97`, `src/conf.c:279`. -/
structure Ids where
  hostid : Nat → Nat := fun _ => 1
  reload : Bool := false
  used : Nat → Nat := fun _ => 1

/-- What happens to them.  `src/mdnsd.c:88-97`, `166-216`, `423-434`. -/
inductive Event where
  /-- `mdnsd_conflict` for an interface -/
  | conflict (iface : Nat)
  /-- SIGHUP -/
  | hup
  /-- The main loop comes to its check of `reload` -/
  | check
deriving Repr, DecidableEq

/-- `mdnsd_conflict`, `src/mdnsd.c:88-97`; `reconf`, 253-256; the reload in the main
loop, 423-435, which calls `conf_init` for every interface.  `int` overflow of
`hostid` is not modelled. -/
def Ids.step (s : Ids) : Event → Ids
  | .conflict i =>
    if s.reload then s else { s with hostid := upd s.hostid i (s.hostid i + 1), reload := true }
  | .hup => { s with reload := true }
  | .check => if s.reload then { s with reload := false, used := s.hostid } else s

/-- A sequence of events.  `src/mdnsd.c:390-481`. -/
def Ids.run (s : Ids) (es : List Event) : Ids := es.foldl Ids.step s

end Mdns.Conf
