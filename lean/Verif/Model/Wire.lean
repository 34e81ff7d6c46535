import Verif.Model.Basic

/-!
# Integers on the wire, `libmdnsd/1035.c:36-95`
-/

namespace Mdns

/-- `short2net`, `libmdnsd/1035.c:64-70`: the two bytes written.  The argument is
an `unsigned short`; a larger number is truncated like a C conversion would. -/
def putShort (i : Nat) : Bytes := [UInt8.ofNat (i >>> 8), UInt8.ofNat i]

/-- `long2net`, `libmdnsd/1035.c:72-82`: the four bytes written. -/
def putLong (l : Nat) : Bytes :=
  [UInt8.ofNat (l >>> 24), UInt8.ofNat (l >>> 16), UInt8.ofNat (l >>> 8), UInt8.ofNat l]

/-- Value computed by `net2short` from its two bytes, `libmdnsd/1035.c:36-46`. -/
def short2 (b0 b1 : UInt8) : Nat := (b0.toNat <<< 8) ||| b1.toNat

/-- Value computed by `net2long` from its four bytes, `libmdnsd/1035.c:48-62`. -/
def long4 (b0 b1 b2 b3 : UInt8) : Nat :=
  (((((b0.toNat <<< 8) ||| b1.toNat) <<< 8) ||| b2.toNat) <<< 8) ||| b3.toNat

/-- `_ldecomp`, `libmdnsd/1035.c:84-95`, from the two bytes of the pointer.
`0xc0 ^ ptr[0]` is computed on a sign-extended `char`, but only its low byte
survives the conversion to `unsigned short` and the shift. -/
def ldecomp (b0 b1 : UInt8) : Nat :=
  let i := (((0xc0 ^^^ b0).toNat <<< 8) ||| b1.toNat)
  if i ≥ 4096 then 4095 else i

/-- `*p & 0xc0` is not zero.  `libmdnsd/1035.c:114`, `163`, `243`. -/
def isPtr (b : UInt8) : Bool := b &&& 0xc0 != 0

end Mdns
