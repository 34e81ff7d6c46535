import Verif.Model.Service
import Verif.Model.XhtAlloc

/-!
# TXT records when memory runs out, `libmdnsd/sdtxt.c` and `src/conf.c`

What the library allocates for the record itself and the lines of the file is there (C96 and C109 are about these).
-/

namespace Mdns.SdTxt

open Mdns.Xht

/-- `sd2txt`, `libmdnsd/sdtxt.c:75-94`; `mem`: the `strdup` or `malloc` of the data succeeds; `none` is NULL. -/
def sd2txtF (t : Option Table) (mem : Bool) : Option Bytes × Nat :=
  let n := count (walkF t)
  if n = 0 then (if mem then some [0] else none, 1)
  else (if mem then some ((walkF t).flatMap (fun kv => writeEntry kv.1.str kv.2.str)) else none, n)

/-- The loop of `txt2sd`, `libmdnsd/sdtxt.c:105-123`, as `txtLoop`.  `lucks`: which allocations succeed in the calls of
`xht_store`, all if the list is at its end. -/
def txtLoopF (t : Option Table) (lucks : List Luck) (mem : Bytes) (len : Nat) : Scan (Option Table) :=
  if len = 0 then .ok t
  else
    match mem with
    | [] => .oob
    | c :: rest =>
      if ¬ c.toNat < len then .ok t
      else if c = 0 then .ok t
      else if rest.length < c.toNat then .oob
      else
        let key := cstr (rest.take c.toNat)
        let kv := splitEq key
        txtLoopF (t.map fun t => storeF t kv.1 (some kv.2) (lucks.headD {})) lucks.tail (rest.drop c.toNat) (len - (c.toNat + 1))
termination_by len

/-- `txt2sd`, `libmdnsd/sdtxt.c:96-126`; `none` is NULL, which the loop passes on to `xht_store`. -/
def txt2sdF (table array : Bool) (lucks : List Luck) (mem : Bytes) (len : Nat) : Scan (Option Table) :=
  if len = 0 then .ok none
  else
    match mem with
    | [] => .oob
    | c :: _ => if c = 0 then .ok none else txtLoopF (newF table array 23) lucks mem len

end Mdns.SdTxt

namespace Mdns.Conf

/-- Which allocations of the TXT part of `load` succeed: the table and its array (`src/conf.c:239`), the node for line `i` (`248`), the data
of `sd2txt` (`250`), and their copy in the record (`252`). -/
structure TxtLuck where
  table : Bool := true
  array : Bool := true
  node : Nat → Bool := fun _ => true
  packet : Bool := true
  copy : Bool := true

/-- The calls of `xht_set` for the lines, `src/conf.c:240-249`, as `txtOps`. -/
def txtOpsF (node : Nat → Bool) : List Bytes → Nat → List (Xht.Op × Xht.Luck)
  | [], _ => []
  | t :: rest, i =>
    if 0x3D ∈ t then
      (.set (2 * i) (t.takeWhile (· != 0x3D)) (some (2 * i + 1, (t.dropWhile (· != 0x3D)).drop 1)), { node := node i }) ::
        txtOpsF node rest (i + 1)
    else txtOpsF node rest (i + 1)

/-- `mdnsd_set_raw`, `libmdnsd/mdnsd.c:1694-1705`: the data of the record afterwards, `some none` if there are none; `none` if NULL
is read.  The length is that of the data and fits. -/
def setRawF (data : Option Bytes) (copy : Bool) : Option (Option Bytes) :=
  if copy then
    match data with
    | none => none
    | some b => some (some b)
  else some none

/-- The TXT part of `load`, `src/conf.c:239-252`: what becomes of the data of the record. -/
def loadTxt (lines : List Bytes) (l : TxtLuck) : Option (Option Bytes) :=
  setRawF (SdTxt.sd2txtF (Xht.runF (Xht.newF l.table l.array 11) (txtOpsF l.node lines 0)) l.packet).1 l.copy

end Mdns.Conf
