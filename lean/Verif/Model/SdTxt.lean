import Verif.Model.Xht

/-!
# TXT record encoding, `libmdnsd/sdtxt.c`
-/

namespace Mdns.SdTxt

open Mdns.Xht

/-- `_sd2txt_len`, `libmdnsd/sdtxt.c:36-47`. -/
def entryLen (key val : Bytes) : Nat :=
  if val.isEmpty then key.length else key.length + val.length + 1

/-- `_sd2txt_count`, `libmdnsd/sdtxt.c:49-54`, over the whole walk.  The C code
accumulates in an `int`; the model does not wrap. -/
def count (l : List (Obj × Obj)) : Nat :=
  l.foldl (fun n kv => n + (entryLen kv.1.str kv.2.str + 1)) 0

/-- `_sd2txt_write`, `libmdnsd/sdtxt.c:56-73`: the bytes written for one entry.
The length is stored in an `unsigned char`. -/
def writeEntry (key val : Bytes) : Bytes :=
  UInt8.ofNat (entryLen key val) ::
    (key ++ if val.isEmpty then [] else 0x3D :: val)

/-- `sd2txt`, `libmdnsd/sdtxt.c:75-94`: the bytes written to the result buffer
and the value of `*len`. -/
def sd2txt (t : Table) : Bytes × Nat :=
  let n := count (walk t)
  if n = 0 then ([0], 1)
  else ((walk t).flatMap (fun kv => writeEntry kv.1.str kv.2.str), n)

/-- Result of a scan: a value, or a read outside the memory given.  `libmdnsd/sdtxt.c:96-126`. -/
inductive Scan (α : Type) where
  | ok (a : α)
  | oob
deriving Repr, DecidableEq

/-- The split at the first `=`, `libmdnsd/sdtxt.c:117-121`: key, and value
(empty when there is none). -/
def splitEq (key : Bytes) : Bytes × Bytes :=
  (key.takeWhile (· != 0x3D), (key.dropWhile (· != 0x3D)).drop 1)

/-- The loop of `txt2sd`, `libmdnsd/sdtxt.c:105-123`.  `mem` is the memory
starting at `txt`; reading beyond it is reported.  The scratch key has 256
bytes; `key[*txt] = 0` with `*txt ≤ 255` stays inside, and the model's key is
the C string in it. -/
def txtLoop (t : Table) (mem : Bytes) (len : Nat) : Scan Table :=
  if len = 0 then .ok t
  else
    match mem with
    | [] => .oob
    | c :: rest =>
      if ¬ c.toNat < len then .ok t
      else if c = 0 then .ok t
      else if rest.length < c.toNat then .oob
      else
        let key := cstr (rest.take c.toNat)
        let kv := splitEq key
        txtLoop (store t kv.1 (some kv.2)) (rest.drop c.toNat) (len - (c.toNat + 1))
termination_by len

/-- `txt2sd`, `libmdnsd/sdtxt.c:96-126`; `none` is NULL.  `len` is not negative. -/
def txt2sd (mem : Bytes) (len : Nat) : Scan (Option Table) :=
  if len = 0 then .ok none
  else
    match mem with
    | [] => .oob
    | c :: _ =>
      if c = 0 then .ok none
      else
        match txtLoop (new 23) mem len with
        | .ok t => .ok (some t)
        | .oob => .oob

end Mdns.SdTxt
