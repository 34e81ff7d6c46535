/-!
# Basic vocabulary of the model

Bytes, C strings and machine-integer helpers shared by all model files.
-/

namespace Mdns

/-- A sequence of bytes in memory.  Not in the code: `char *` and `unsigned char *` with a length, for example `libmdnsd/1035.h:77`. -/
abbrev Bytes := List UInt8

/-- The C string starting at the given memory: everything before the first NUL.
If the memory holds no NUL the string is the whole memory (callers that could
run off the end model that separately).  As `strlen` and `strcmp` see it, for example `libmdnsd/mdnsd.c:142`. -/
def cstr (b : Bytes) : Bytes := b.takeWhile (· != 0)

/-- Function update.  Not in the code: assignment to an element, for example `libmdnsd/mdnsd.c:650`. -/
def upd {α : Type} (f : Nat → α) (i : Nat) (v : α) : Nat → α :=
  fun j => if j = i then v else f j

@[simp] theorem upd_same {α : Type} (f : Nat → α) (i : Nat) (v : α) : upd f i v i = v := by
  simp [upd]

theorem upd_other {α : Type} (f : Nat → α) (i j : Nat) (v : α) (h : j ≠ i) :
    upd f i v j = f j := by
  simp [upd, h]

/-- The `(int)` conversion of an `unsigned long` (LP64): keep 32 bits, read as
two's complement.  `libmdnsd/mdnsd.c:130`, `libmdnsd/xht.c:69`. -/
def cInt (h : UInt64) : Int := (h.toBitVec.setWidth 32).toInt

end Mdns
