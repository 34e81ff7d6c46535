import Verif.Model.Parser
import Verif.Lemmas.Util

/-!
# C01: integers on the wire

Spec: network byte order, i.e. the value of a byte sequence is the number whose
base-256 digits are the bytes, most significant first.
-/

namespace Mdns

/-- Spec: value of big-endian bytes. -/
def beValue (b : Bytes) : Nat := b.foldl (fun n c => n * 256 + c.toNat) 0

theorem byte_or (x : Nat) (b : UInt8) : (x <<< 8) ||| b.toNat = x * 256 + b.toNat := by
  have hb : b.toNat < 2 ^ 8 := b.toNat_lt
  rw [← Nat.shiftLeft_add_eq_or_of_lt hb, Nat.shiftLeft_eq]

theorem short2_eq (a b : UInt8) : short2 a b = beValue [a, b] := by
  simp [short2, beValue, byte_or]

theorem long4_eq (a b c d : UInt8) : long4 a b c d = beValue [a, b, c, d] := by
  simp only [long4, beValue, byte_or, List.foldl_cons, List.foldl_nil]
  omega

theorem putShort_value (v : Nat) : beValue (putShort v) = v % 65536 := by
  simp only [putShort, beValue, List.foldl_cons, List.foldl_nil, UInt8.toNat_ofNat',
    Nat.shiftRight_eq_div_pow]
  omega

theorem putLong_value (v : Nat) : beValue (putLong v) = v % 4294967296 := by
  simp only [putLong, beValue, List.foldl_cons, List.foldl_nil, UInt8.toNat_ofNat',
    Nat.shiftRight_eq_div_pow]
  omega

theorem ofBytes_at (size : Nat) (pre mid post : Bytes) (i : Nat) (h : i < mid.length) :
    (RBuf.ofBytes size (pre ++ mid ++ post)).at_ (pre.length + i) = mid[i] := by
  simp only [RBuf.ofBytes, List.getD_eq_getElem?_getD]
  rw [List.append_assoc, List.getElem?_append_right (by omega)]
  have : pre.length + i - pre.length = i := by omega
  rw [this, List.getElem?_append_left h, List.getElem?_eq_getElem h]
  rfl

/-- **C01.** A 16-bit value written anywhere in a buffer is read back by
`net2short` at that place; it takes two bytes, most significant first. -/
theorem C01_short_round_trip (size v : Nat) (pre post : Bytes) (hv : v < 65536)
    (hs : pre.length + 2 ≤ size) :
    (RBuf.ofBytes size (pre ++ putShort v ++ post)).short pre.length = .ok v ∧
    (putShort v).length = 2 ∧ beValue (putShort v) = v := by
  have h0 := ofBytes_at size pre (putShort v) post 0 (by simp [putShort])
  have h1 := ofBytes_at size pre (putShort v) post 1 (by simp [putShort])
  refine ⟨?_, rfl, ?_⟩
  · simp only [RBuf.short, RBuf.rd]
    have e0 : pre.length < (RBuf.ofBytes size (pre ++ putShort v ++ post)).size := by
      show _ < size; omega
    have e1 : pre.length + 1 < (RBuf.ofBytes size (pre ++ putShort v ++ post)).size := by
      show _ < size; omega
    rw [if_pos e0, if_pos e1]
    simp only [bind, PRes.bind, pure, Nat.add_zero] at h0 ⊢
    rw [h0, h1, short2_eq]
    have := putShort_value v
    rw [Nat.mod_eq_of_lt hv] at this
    exact congrArg PRes.ok this
  · rw [putShort_value, Nat.mod_eq_of_lt hv]

/-- **C01.** The same for 32-bit values, `long2net` and `net2long`. -/
theorem C01_long_round_trip (size v : Nat) (pre post : Bytes) (hv : v < 4294967296)
    (hs : pre.length + 4 ≤ size) :
    (RBuf.ofBytes size (pre ++ putLong v ++ post)).long pre.length = .ok v ∧
    (putLong v).length = 4 ∧ beValue (putLong v) = v := by
  have h0 := ofBytes_at size pre (putLong v) post 0 (by simp [putLong])
  have h1 := ofBytes_at size pre (putLong v) post 1 (by simp [putLong])
  have h2 := ofBytes_at size pre (putLong v) post 2 (by simp [putLong])
  have h3 := ofBytes_at size pre (putLong v) post 3 (by simp [putLong])
  refine ⟨?_, rfl, ?_⟩
  · simp only [RBuf.long, RBuf.rd]
    have e0 : pre.length < (RBuf.ofBytes size (pre ++ putLong v ++ post)).size := by
      show _ < size; omega
    have e1 : pre.length + 1 < (RBuf.ofBytes size (pre ++ putLong v ++ post)).size := by
      show _ < size; omega
    have e2 : pre.length + 2 < (RBuf.ofBytes size (pre ++ putLong v ++ post)).size := by
      show _ < size; omega
    have e3 : pre.length + 3 < (RBuf.ofBytes size (pre ++ putLong v ++ post)).size := by
      show _ < size; omega
    rw [if_pos e0, if_pos e1, if_pos e2, if_pos e3]
    simp only [bind, PRes.bind, pure, Nat.add_zero] at h0 ⊢
    rw [h0, h1, h2, h3, long4_eq]
    have := putLong_value v
    rw [Nat.mod_eq_of_lt hv] at this
    exact congrArg PRes.ok this
  · rw [putLong_value, Nat.mod_eq_of_lt hv]

example : (RBuf.ofBytes 6 ([9] ++ putLong 0xDEADBEEF ++ [1])).long 1 = .ok 0xDEADBEEF :=
  (C01_long_round_trip 6 _ [9] [1] (by decide) (by decide)).1

end Mdns
