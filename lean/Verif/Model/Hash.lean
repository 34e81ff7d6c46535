import Verif.Model.Basic

/-!
# The ELF string hash

`libmdnsd/xht.c:55-70` (`_xhter`) and `libmdnsd/mdnsd.c:118-131` (`_namehash`) are the
same function: a 64-bit accumulator on LP64, although the algorithm was written
for 32-bit words.
-/

namespace Mdns

/-- One round of the loop, `libmdnsd/xht.c:61-67` and `libmdnsd/mdnsd.c:123-128`. -/
def elfStep (h : UInt64) (c : UInt8) : UInt64 :=
  let h := (h <<< 4) + c.toUInt64
  let g := h &&& 0xF0000000
  let h := if g ≠ 0 then h ^^^ (g >>> 24) else h
  h &&& ~~~g

/-- The accumulator after the whole string.  `libmdnsd/mdnsd.c:118-131`, `libmdnsd/xht.c:55-70`. -/
def elfHash (s : Bytes) : UInt64 := s.foldl elfStep 0

/-- `_xhter` / `_namehash`: the `int` returned (`libmdnsd/xht.c:69`,
`libmdnsd/mdnsd.c:130`). -/
def nameHash (s : Bytes) : Int := cInt (elfHash s)

/-- The index expression `hash % prime` with C's truncating `%`
(`libmdnsd/xht.c:107`, `libmdnsd/mdnsd.c:137`, `:152` and everywhere else a bucket is selected). -/
def bucketIdx (s : Bytes) (prime : Nat) : Int := (nameHash s).tmod prime

/-- The same index as a natural number, for use as a model index
(`Props.Hash` proves that nothing is lost).  `libmdnsd/mdnsd.c:137`, `152`, `167`. -/
def bucket (s : Bytes) (prime : Nat) : Nat := (bucketIdx s prime).toNat

end Mdns
