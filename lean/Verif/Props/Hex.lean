import Verif.Model.Hex
import Verif.Lemmas.Ascii

/-!
# C91: printed packets
-/

namespace Mdns.Hex

/-! ### Specification -/

/-- At least six digits. -/
def six (n : Nat) : Bytes := List.replicate (6 - (numeral 16 n).length) (UInt8.ofNat '0'.toNat) ++ numeral 16 n

/-- Two digits of a byte, and a space. -/
def two (b : UInt8) : Bytes := ([b.toNat / 16, b.toNat % 16].map fun n => (ascii "0123456789ABCDEF").getD n 0) ++ ascii " "

/-- A byte as a character, if it is one of those from the space to the tilde. -/
def seen (b : UInt8) : UInt8 := if b.toNat ∈ List.range' ' '.toNat 95 then b else UInt8.ofNat '.'.toNat

/-- A line: where it is, up to sixteen bytes, and the same as text in a column of its own. -/
def line (off : Nat) (c : Bytes) (text : Bool) : Bytes :=
  ascii "\n" ++ six off ++ ascii " " ++ c.flatMap two ++ List.replicate (3 * (16 - c.length)) (UInt8.ofNat ' '.toNat) ++
    if text then c.map seen else []

/-- All lines; `last` tells whether the last one has its text. -/
def lines (last : Bool) (off : Nat) (l : Bytes) : Bytes :=
  if _h : l.length ≤ 16 then (if l = [] then [] else line off l last)
  else line off (l.take 16) true ++ lines last (off + 16) (l.drop 16)
termination_by l.length
decreasing_by simp only [List.length_drop]; omega

/-! ### The lines -/

theorem lower_numeral (n : Nat) : lower n = numeral 16 n := by
  have hd : ∀ n < 16, digit 0x61 n = UInt8.ofNat n.digitChar.toNat := by decide
  induction n using Nat.strongRecOn with
  | _ n ih =>
    unfold lower
    split
    · rename_i h
      rw [numeral_lt h, hd n h]
    · rename_i h
      rw [numeral_ge (by omega) (by omega), ih _ (by omega), hd _ (Nat.mod_lt _ (by omega))]

theorem offset_six (n : Nat) : six n = offset n := by
  unfold six offset
  rw [lower_numeral]
  rfl

theorem byte_two (b : UInt8) : two b = byte b := by
  have hd : ∀ n < 16, digit 0x41 n = (ascii "0123456789ABCDEF").getD n 0 := by decide
  have hb : b.toNat < 256 := b.toNat_lt
  unfold two byte
  rw [hd _ (by omega), hd _ (Nat.mod_lt _ (by omega))]
  rfl

theorem char_seen (b : UInt8) : seen b = char b := by
  unfold seen char
  have : b.toNat ∈ List.range' ' '.toNat 95 ↔ 0x20 ≤ b ∧ b ≤ 0x7E := by
    rw [List.mem_range'_1, UInt8.le_iff_toNat_le, UInt8.le_iff_toNat_le]
    show 32 ≤ b.toNat ∧ b.toNat < 32 + 95 ↔ 32 ≤ b.toNat ∧ b.toNat ≤ 126
    omega
  by_cases h : 0x20 ≤ b ∧ b ≤ 0x7E
  · rw [if_pos (this.2 h), if_pos h]
  · rw [if_neg (fun x => h (this.1 x)), if_neg h]; rfl

theorem line_eq (off : Nat) (c : Bytes) (text : Bool) : line off c text =
    [0x0A] ++ offset off ++ [0x20] ++ c.flatMap byte ++ List.replicate (3 * (16 - c.length)) 0x20 ++ if text then c.map char else [] := by
  have e1 : two = byte := funext byte_two
  have e2 : seen = char := funext char_seen
  unfold line
  rw [offset_six, e1, e2]
  rfl

theorem char_ne (b : UInt8) : char b ≠ 0 := by
  unfold char
  split
  · rename_i h
    intro h0
    subst h0
    exact absurd h.1 (by decide)
  · decide

theorem str_line (c : Bytes) (a : Bytes) (h : a.take c.length = c.map char) (h0 : a[c.length]? = some 0) :
    str a = c.map char := by
  have e : a = c.map char ++ 0 :: a.drop (c.length + 1) := by
    have hl : c.length < a.length := (List.getElem?_eq_some_iff.1 h0).1
    have hx : a[c.length] = 0 := (List.getElem?_eq_some_iff.1 h0).2
    calc a = a.take c.length ++ a.drop c.length := (List.take_append_drop ..).symm
      _ = _ := by rw [h, List.drop_eq_getElem_cons hl, hx]
  rw [e]
  unfold str
  rw [List.takeWhile_append_of_pos]
  · simp
  · intro x hx
    obtain ⟨b, -, rfl⟩ := List.mem_map.1 hx
    simpa using char_ne b

/-- The loop from the middle of a line: `cur` is what the line has so far. -/
theorem loop_spec (rest : Bytes) : ∀ (off : Nat) (cur a : Bytes), off % 16 = 0 → 0 < cur.length → cur.length ≤ 16 →
    a.length = 17 → a[16]? = some 0 → a.take cur.length = cur.map char →
    [0x0A] ++ offset off ++ [0x20] ++ cur.flatMap byte ++ (loop (off + cur.length) rest a).1 ++
      (if (cur.length + rest.length) % 16 = 0 then [] else List.replicate (3 * (16 - (cur.length + rest.length) % 16)) 0x20) ++
      str ((loop (off + cur.length) rest a).2.set ((cur.length + rest.length) % 16) 0) =
    lines ((cur.length + rest.length) % 16 != 0) off (cur ++ rest) := by
  induction rest with
  | nil =>
    intro off cur a ho h0 h16 hl hz ht
    simp only [loop, List.append_nil, List.length_nil, Nat.add_zero]
    unfold lines
    have hne : cur ≠ [] := by intro h; rw [h] at h0; simp at h0
    rw [dif_pos h16, if_neg hne, line_eq]
    by_cases hk : cur.length = 16
    · rw [hk]
      have : str (a.set 0 0) = [] := by
        cases a with
        | nil => simp at hl
        | cons x t => simp [str]
      simp [this]
    · have hm : cur.length % 16 = cur.length := Nat.mod_eq_of_lt (by omega)
      have h1 : ¬ cur.length = 0 := by omega
      rw [hm, if_neg h1]
      have : str (a.set cur.length 0) = cur.map char := by
        refine str_line cur _ ?_ ?_
        · rw [List.take_set_of_le (Nat.le_refl _), ht]
        · rw [List.getElem?_set_self (by omega)]
      rw [this]
      have hb : (cur.length != 0) = true := by simp; intro h; rw [h] at h0; simp at h0
      simp [hb]
  | cons b rest ih =>
    intro off cur a ho h0 h16 hl hz ht
    by_cases hk : cur.length = 16
    · -- a new line
      have hs : str a = cur.map char := str_line cur a ht (by rw [hk]; exact hz)
      have := ih (off + 16) [b] (a.set 0 (char b)) (by omega) (by simp) (by simp) (by simpa using hl)
        (by rw [List.getElem?_set_ne (by omega)]; exact hz)
        (by cases a with
            | nil => simp at hl
            | cons x t => simp)
      simp only [List.length_cons, List.length_nil, Nat.zero_add, List.flatMap_cons, List.flatMap_nil, List.append_nil] at this
      unfold lines
      rw [dif_neg (by simp [hk])]
      have ht' : (cur ++ b :: rest).take 16 = cur := by rw [← hk, List.take_left']; rfl
      have hd' : (cur ++ b :: rest).drop 16 = [b] ++ rest := by rw [← hk, List.drop_left']; rfl; rfl
      rw [ht', hd', loop]
      have hm : (cur.length + (b :: rest).length) % 16 = (1 + rest.length) % 16 := by simp only [List.length_cons, hk]; omega
      rw [hm, ← this, line_eq, hk, hs, if_pos (by omega), show (off + 16) % 16 = 0 by omega, show off + 16 + 1 = off + 16 + 1 from rfl]
      simp
    · have := ih off (cur ++ [b]) (a.set cur.length (char b)) ho (by simp) (by simp; omega) (by simpa using hl)
        (by rw [List.getElem?_set_ne (by omega)]; exact hz)
        (by
          rw [List.length_append, List.length_singleton, List.take_add_one, List.take_set_of_le (Nat.le_refl _), ht,
            List.getElem?_set_self (by omega)]
          simp)
      have hm : (off + cur.length) % 16 = cur.length := by omega
      rw [loop, if_neg (by omega), hm]
      rw [show cur ++ b :: rest = cur ++ [b] ++ rest by simp, show cur.length + (b :: rest).length = (cur ++ [b]).length + rest.length by simp; omega,
        ← this]
      simp [Nat.add_assoc]

/-- **C91.** A packet of any length is printed in full: each line has its offset and up to sixteen bytes, in order, and the
same bytes as text, with dots for those that cannot be printed; nothing but the message, these lines, and two newlines.  The
text of the last line is there only if that line is not full. -/
theorem C91_printed_partial (msg buf : Bytes) :
    dump msg buf = msg ++ lines (buf.length % 16 != 0) 0 buf ++ ascii "\n\n" := by
  cases buf with
  | nil => unfold lines; rw [show ascii "\n\n" = [0x0A, 0x0A] from by decide]; simp [dump, loop, str]
  | cons b rest =>
    have := loop_spec rest 0 [b] ((List.replicate 17 0).set 0 (char b)) rfl (by simp) (by simp) (by simp) (by simp) (by simp)
    unfold dump
    rw [loop]
    simp only [List.length_cons, List.length_nil, Nat.zero_add, List.flatMap_cons, List.flatMap_nil, List.append_nil,
      show rest.length + 1 = 1 + rest.length by omega] at this ⊢
    rw [show b :: rest = [b] ++ rest from rfl, ← this, show ascii "\n\n" = [0x0A, 0x0A] from by decide]
    simp [str]

/-- The text of a last line with sixteen bytes is left out: of the 16 bytes `A` nothing is shown in the column of text. -/
theorem C91_text_counterexample : ∃ buf : Bytes, buf.length = 16 ∧ dump [] buf ≠ lines true 0 buf ++ [0x0A, 0x0A] ∧
    dump [] buf = [0x0A] ++ offset 0 ++ [0x20] ++ buf.flatMap byte ++ [0x0A, 0x0A] := by
  refine ⟨List.replicate 16 0x41, rfl, ?_, by decide +kernel⟩
  rw [C91_printed_partial]
  unfold lines
  decide +kernel

/-- Two lines. -/
example : dump [] ([0x00, 0x41] ++ List.replicate 14 0x20 ++ [0xFF]) =
    [0x0A] ++ [0x30, 0x30, 0x30, 0x30, 0x30, 0x30, 0x20] ++ [0x30, 0x30, 0x20, 0x34, 0x31, 0x20] ++
      (List.replicate 14 [0x32, 0x30, 0x20]).flatten ++ [0x2E, 0x41] ++ List.replicate 14 0x20 ++
    [0x0A] ++ [0x30, 0x30, 0x30, 0x30, 0x31, 0x30, 0x20] ++ [0x46, 0x46, 0x20] ++ List.replicate 45 0x20 ++ [0x2E] ++
    [0x0A, 0x0A] := by decide +kernel

end Mdns.Hex
