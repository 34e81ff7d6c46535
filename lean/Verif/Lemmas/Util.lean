import Verif.Model.Basic

/-! Small list lemmas. -/

namespace Mdns

theorem takeWhile_self {α} (p : α → Bool) (l : List α) (h : ∀ x ∈ l, p x = true) :
    l.takeWhile p = l := by
  have := List.takeWhile_append_of_pos (l₂ := []) h
  simpa using this

theorem dropWhile_nil {α} (p : α → Bool) (l : List α) (h : ∀ x ∈ l, p x = true) :
    l.dropWhile p = [] := by
  have := List.dropWhile_append_of_pos (l₂ := []) h
  simpa using this

theorem cstr_of_nul_free {b : Bytes} (h : 0 ∉ b) : cstr b = b := by
  unfold cstr
  apply takeWhile_self
  intro x hx
  simp only [bne_iff_ne, ne_eq]
  rintro rfl; exact h hx

theorem length_takeWhile_le' {α} (p : α → Bool) (l : List α) : (l.takeWhile p).length ≤ l.length :=
  (List.takeWhile_prefix p).length_le

theorem cstr_nul_free (b : Bytes) : (0 : UInt8) ∉ cstr b := by
  intro hc
  unfold cstr at hc
  have := List.all_takeWhile (p := (· != (0 : UInt8))) (l := b)
  rw [List.all_eq_true] at this
  exact absurd (this 0 hc) (by decide)

/-- A statement about all bytes may be checked byte by byte. -/
theorem forall_byte {p : UInt8 → Prop} (h : ∀ n : Fin 256, p (UInt8.ofFin n)) (c : UInt8) : p c := by
  have := h c.toFin
  simpa using this

end Mdns
