import Verif.Model.CLib

/-!
# Text in specifications

Numbers and words as Lean writes them, as bytes.
-/

namespace Mdns

/-- The bytes of an ASCII string. -/
def ascii (s : String) : Bytes := s.toList.map fun c => UInt8.ofNat c.toNat

/-- The digits of a number, to a base up to sixteen. -/
def numeral (base n : Nat) : Bytes := (Nat.toDigits base n).map fun c => UInt8.ofNat c.toNat

theorem numeral_lt {base n : Nat} (h : n < base) : numeral base n = [UInt8.ofNat n.digitChar.toNat] := by
  unfold numeral
  rw [Nat.toDigits_of_lt_base h]
  rfl

theorem numeral_ge {base n : Nat} (hb : 1 < base) (h : base ≤ n) :
    numeral base n = numeral base (n / base) ++ [UInt8.ofNat (n % base).digitChar.toNat] := by
  have h0 : 0 < n / base := Nat.div_pos h (by omega)
  have hm : n % base < base := Nat.mod_lt _ (by omega)
  have e := Nat.toDigits_append_toDigits hb h0 hm
  rw [Nat.div_add_mod] at e
  unfold numeral
  rw [← e, List.map_append, Nat.toDigits_of_lt_base hm]
  rfl

theorem decimal_numeral (n : Nat) : CLib.decimal n = numeral 10 n := by
  induction n using Nat.strongRecOn with
  | _ n ih =>
    unfold CLib.decimal
    split
    · rename_i h
      rw [numeral_lt h, Nat.toNat_digitChar_of_lt_ten h]
    · rename_i h
      rw [numeral_ge (by omega) (by omega), ih _ (by omega), Nat.toNat_digitChar_of_lt_ten (Nat.mod_lt _ (by omega))]

end Mdns
