import Verif.Model.Hash

/-!
# C17: hash indexes stay in the table

Spec: for every string and every table size `p > 0` the C index expression
`hash(s) % p` is a valid index, `0 ≤ i < p`.  C's `%` truncates towards zero, so
this needs the `int` hash to be non-negative, although the 64-bit accumulator
may exceed 32 bits.
-/

namespace Mdns

/-- Bits 28..31 of the accumulator are clear after every round. -/
theorem elfStep_bits (h : UInt64) (c : UInt8) (i : Nat) (h1 : 28 ≤ i) (h2 : i < 32) :
    (elfStep h c).toBitVec.getLsbD i = false := by
  have hi : i < 64 := by omega
  have hm : ∀ j, j < 64 → (0xF0000000 : BitVec 64).getLsbD j = decide (28 ≤ j ∧ j < 32) := by
    decide
  simp only [elfStep]
  generalize (h <<< 4 + c.toUInt64) = x
  have hmi := hm i hi
  have hmi2 : (0xF0000000 : BitVec 64).getLsbD (24 + i) = false := by
    by_cases h64 : 24 + i < 64
    · rw [hm _ h64]; simp; omega
    · exact BitVec.getLsbD_of_ge _ _ (by omega)
  split
  · simp only [UInt64.toBitVec_and, UInt64.toBitVec_not, UInt64.toBitVec_xor,
      UInt64.toBitVec_shiftRight, BitVec.getLsbD_and, BitVec.getLsbD_not, BitVec.getLsbD_xor]
    have : (4026531840 : UInt64).toBitVec = (0xF0000000 : BitVec 64) := rfl
    rw [this, hmi]
    simp [h1, h2, hi]
    intro h
    have e : (24 : BitVec 64) % 64 = 24 := by decide
    simp_all
  · simp only [UInt64.toBitVec_and, UInt64.toBitVec_not, BitVec.getLsbD_and, BitVec.getLsbD_not]
    have : (4026531840 : UInt64).toBitVec = (0xF0000000 : BitVec 64) := rfl
    rw [this, hmi]
    simp [h1, h2, hi]

theorem elfHash_bits (s : Bytes) (i : Nat) (h1 : 28 ≤ i) (h2 : i < 32) :
    (elfHash s).toBitVec.getLsbD i = false := by
  rcases List.eq_nil_or_concat s with rfl | ⟨l, a, rfl⟩
  · simp [elfHash]
  · simp only [elfHash, List.concat_eq_append, List.foldl_append, List.foldl_cons, List.foldl_nil]
    exact elfStep_bits _ _ i h1 h2

/-- The `int` hash of every string is between 0 and 2^28 - 1. -/
theorem nameHash_range (s : Bytes) : 0 ≤ nameHash s ∧ nameHash s < 2 ^ 28 := by
  have key : ((elfHash s).toBitVec.setWidth 32).toNat < 2 ^ 28 := by
    apply Nat.lt_pow_two_of_testBit
    intro i hi
    rw [BitVec.testBit_toNat]
    by_cases h32 : i < 32
    · rw [BitVec.getLsbD_setWidth]
      simp [h32, elfHash_bits s i hi h32]
    · exact BitVec.getLsbD_of_ge _ _ (by omega)
  simp only [nameHash, cInt]
  rw [BitVec.toInt_eq_toNat_cond]
  split <;> omega

/-- **C17.** Every bucket index is inside the table, for all strings and sizes. -/
theorem C17_bucket_in_range (s : Bytes) (p : Nat) (hp : 0 < p) :
    0 ≤ bucketIdx s p ∧ bucketIdx s p < p := by
  obtain ⟨h0, h1⟩ := nameHash_range s
  simp only [bucketIdx]
  rw [Int.tmod_eq_emod_of_nonneg h0]
  exact ⟨Int.emod_nonneg _ (by omega), Int.emod_lt_of_pos _ (by omega)⟩

theorem bucket_lt (s : Bytes) (p : Nat) (hp : 0 < p) : bucket s p < p := by
  have := C17_bucket_in_range s p hp
  simp only [bucket]; omega

theorem bucket_eq (s : Bytes) (p : Nat) (hp : 0 < p) : (bucket s p : Int) = bucketIdx s p := by
  have := C17_bucket_in_range s p hp
  simp only [bucket]; omega

/-- The accumulator really does leave 32 bits for some strings, so the claim is
not vacuous: this seven byte string carries into bit 32. -/
example : (elfHash [0xff, 0x0f, 0x0f, 0x0f, 0x0f, 0x0f, 0xff]).toNat ≥ 2 ^ 32 := by decide +kernel

example : 0 ≤ bucketIdx [0xff, 0x0f, 0x0f, 0x0f, 0x0f, 0x0f, 0xff] 1009 :=
  (C17_bucket_in_range _ 1009 (by decide)).1

end Mdns
