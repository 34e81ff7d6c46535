import Verif.Model.Log
import Verif.Props.Conf

/-!
# C52: log levels
-/

namespace Mdns.Log

open Mdns.CLib

/-! ### Specification -/

/-- The same byte, or the capital and the small form of a letter. -/
def SameLetter (a b : UInt8) : Prop :=
  a = b ∨ (0x41 ≤ a.toNat ∧ a.toNat ≤ 0x5A ∧ b.toNat = a.toNat + 0x20) ∨
    (0x41 ≤ b.toNat ∧ b.toNat ≤ 0x5A ∧ a.toNat = b.toNat + 0x20)

/-- Equal but for the case of letters. -/
inductive SameLetters : Bytes → Bytes → Prop where
  | nil : SameLetters [] []
  | cons {a b x y} (h : SameLetter a b) (t : SameLetters x y) : SameLetters (a :: x) (b :: y)

/-- The names and numbers of the manual page, in ASCII. -/
def Level (name : String) (n : Int) : Prop :=
  (name, n) ∈ [("emerg", (0 : Int)), ("panic", 0), ("alert", 1), ("crit", 2), ("err", 3), ("error", 3), ("warn", 4),
    ("warning", 4), ("notice", 5), ("info", 6), ("debug", 7), ("none", 16)]

/-- The bytes of an ASCII string. -/
def ascii (s : String) : Bytes := s.toList.map (fun c => UInt8.ofNat c.toNat)

/-! ### Proofs -/

theorem toLower_toNat (a : UInt8) :
    (toLower a).toNat = if 0x41 ≤ a.toNat ∧ a.toNat ≤ 0x5A then a.toNat + 0x20 else a.toNat := by
  unfold toLower
  simp only [Bool.and_eq_true, decide_eq_true_eq, UInt8.le_iff_toNat_le]
  split
  · rename_i h
    have h : 0x41 ≤ a.toNat ∧ a.toNat ≤ 0x5A := h
    rw [if_pos h, UInt8.toNat_add]
    simp
    omega
  · rename_i h
    have h : ¬ (0x41 ≤ a.toNat ∧ a.toNat ≤ 0x5A) := h
    rw [if_neg h]

theorem toLower_iff (a b : UInt8) : toLower a = toLower b ↔ SameLetter a b := by
  rw [← UInt8.toNat_inj, toLower_toNat, toLower_toNat]
  unfold SameLetter
  rw [← UInt8.toNat_inj]
  split <;> split <;> omega

theorem caseEq_iff (a b : Bytes) : caseEq a b = true ↔ SameLetters a b := by
  unfold caseEq
  rw [beq_iff_eq]
  induction a generalizing b with
  | nil =>
    cases b with
    | nil => simp [SameLetters.nil]
    | cons b y => simp; intro h; cases h
  | cons a x ih =>
    cases b with
    | nil => simp; intro h; cases h
    | cons b y =>
      simp only [List.map_cons, List.cons.injEq]
      constructor
      · rintro ⟨h1, h2⟩; exact .cons ((toLower_iff _ _).1 h1) ((ih y).1 h2)
      · rintro (_ | ⟨h, t⟩); exact ⟨(toLower_iff _ _).2 h, (ih y).2 t⟩

theorem SameLetters.symm {a b : Bytes} (h : SameLetters a b) : SameLetters b a := by
  rw [← caseEq_iff] at h ⊢
  unfold caseEq at h ⊢
  rw [beq_iff_eq] at h ⊢
  exact h.symm

theorem SameLetters.trans {a b c : Bytes} (h : SameLetters a b) (h' : SameLetters b c) : SameLetters a c := by
  rw [← caseEq_iff] at h h' ⊢
  unfold caseEq at h h' ⊢
  rw [beq_iff_eq] at h h' ⊢
  exact h.trans h'

theorem lookup_step (level nm : Bytes) (v : Int) (t : List (Bytes × Int)) :
    (SameLetters nm level → lookup level ((nm, v) :: t) = v) ∧
    (¬ SameLetters nm level → lookup level ((nm, v) :: t) = lookup level t) := by
  have e : ncaseEq nm level (max nm.length level.length) = true ↔ SameLetters nm level := by
    unfold ncaseEq
    rw [List.take_of_length_le (by omega), List.take_of_length_le (by omega), caseEq_iff]
  constructor
  · intro h; rw [lookup, if_pos (e.2 h)]
  · intro h; rw [lookup, if_neg (fun x => h (e.1 x))]

/-- Only one name in a table fits. -/
theorem lookup_mem (l : List (Bytes × Int)) (level nm : Bytes) (v : Int) (hm : (nm, v) ∈ l)
    (hs : SameLetters nm level)
    (hu : ∀ p ∈ l, ∀ q ∈ l, SameLetters p.1 q.1 → p.2 = q.2) : lookup level l = v := by
  induction l with
  | nil => cases hm
  | cons p t ih =>
    rcases Classical.em (SameLetters p.1 level) with h | h
    · rw [(lookup_step level p.1 p.2 t).1 h]
      exact hu p (by simp) (nm, v) hm (h.trans hs.symm)
    · rw [(lookup_step level p.1 p.2 t).2 h]
      rcases List.mem_cons.1 hm with rfl | hm
      · exact absurd hs h
      · exact ih hm (fun p hp q hq => hu p (by simp [hp]) q (by simp [hq]))

theorem lookup_none (l : List (Bytes × Int)) (level : Bytes)
    (h : ∀ p ∈ l, ¬ SameLetters p.1 level) : lookup level l = -1 := by
  induction l with
  | nil => rfl
  | cons p t ih =>
    rw [(lookup_step level p.1 p.2 t).2 (h p (by simp))]
    exact ih (fun p hp => h p (by simp [hp]))

theorem names_unique : ∀ p ∈ priorityNames, ∀ q ∈ priorityNames, SameLetters p.1 q.1 → p.2 = q.2 := by
  have : ∀ p ∈ priorityNames, ∀ q ∈ priorityNames, caseEq p.1 q.1 = true → p.2 = q.2 := by decide +kernel
  exact fun p hp q hq h => this p hp q hq ((caseEq_iff _ _).2 h)

theorem level_mem (name : String) (n : Int) : Level name n → (ascii name, n) ∈ priorityNames := by
  unfold Level
  intro h
  simp only [List.mem_cons, List.not_mem_nil, or_false, Prod.mk.injEq] at h
  rcases h with ⟨rfl, rfl⟩ | ⟨rfl, rfl⟩ | ⟨rfl, rfl⟩ | ⟨rfl, rfl⟩ | ⟨rfl, rfl⟩ | ⟨rfl, rfl⟩ | ⟨rfl, rfl⟩ |
    ⟨rfl, rfl⟩ | ⟨rfl, rfl⟩ | ⟨rfl, rfl⟩ | ⟨rfl, rfl⟩ | ⟨rfl, rfl⟩ <;> decide +kernel

theorem mem_level (p : Bytes × Int) (h : p ∈ priorityNames) : ∃ name, Level name p.2 ∧ ascii name = p.1 := by
  simp only [priorityNames, List.mem_cons, List.not_mem_nil, or_false] at h
  rcases h with rfl | rfl | rfl | rfl | rfl | rfl | rfl | rfl | rfl | rfl | rfl | rfl
  · exact ⟨"alert", by simp [Level], by decide +kernel⟩
  · exact ⟨"crit", by simp [Level], by decide +kernel⟩
  · exact ⟨"debug", by simp [Level], by decide +kernel⟩
  · exact ⟨"emerg", by simp [Level], by decide +kernel⟩
  · exact ⟨"error", by simp [Level], by decide +kernel⟩
  · exact ⟨"err", by simp [Level], by decide +kernel⟩
  · exact ⟨"info", by simp [Level], by decide +kernel⟩
  · exact ⟨"none", by simp [Level, noPri], by decide +kernel⟩
  · exact ⟨"notice", by simp [Level], by decide +kernel⟩
  · exact ⟨"panic", by simp [Level], by decide +kernel⟩
  · exact ⟨"warning", by simp [Level], by decide +kernel⟩
  · exact ⟨"warn", by simp [Level], by decide +kernel⟩

/-- **C52.** A known name, in any letter case, sets and returns its level. -/
theorem C52_names (cur : Int) (level : Bytes) (name : String) (n : Int) (h : Level name n)
    (hs : SameLetters (ascii name) level) : setLevel cur level = (n, n) := by
  have e := lookup_mem priorityNames level (ascii name) n (level_mem _ _ h) hs names_unique
  unfold setLevel
  have : 0 ≤ n := by
    unfold Level at h
    simp only [List.mem_cons, List.not_mem_nil, or_false, Prod.mk.injEq] at h
    omega
  rw [e]
  simp only
  rw [if_neg (by omega), if_pos (by omega)]

/-- **C52.** Anything else is read as a number; the level changes to it unless it
is negative. -/
theorem C52_numbers (cur : Int) (level : Bytes)
    (h : ∀ name n, Level name n → ¬ SameLetters (ascii name) level) :
    (setLevel cur level).1 = atoi level ∧
    (setLevel cur level).2 = if 0 ≤ atoi level then atoi level else cur := by
  have e : lookup level priorityNames = -1 := lookup_none _ _ (fun p hp hs => by
    obtain ⟨name, h1, h2⟩ := mem_level p hp
    exact h name p.2 h1 (h2 ▸ hs))
  unfold setLevel
  rw [e]
  simp

/-- **C52.** The level never becomes negative, and -1 is returned only if the
argument is read as the number -1 (the callers take -1 for an error). -/
theorem C52_error (cur : Int) (level : Bytes) :
    (0 ≤ cur → 0 ≤ (setLevel cur level).2) ∧
    ((setLevel cur level).1 < 0 → (setLevel cur level).2 = cur) ∧
    ((setLevel cur level).1 = -1 → atoi level = -1) := by
  rcases Classical.em (∃ name n, Level name n ∧ SameLetters (ascii name) level) with ⟨name, n, h, hs⟩ | h
  · rw [C52_names cur level name n h hs]
    have : 0 ≤ n := by
      unfold Level at h
      simp only [List.mem_cons, List.not_mem_nil, or_false, Prod.mk.injEq] at h
      omega
    refine ⟨fun _ => this, fun x => ?_, fun x => ?_⟩ <;> simp at x <;> omega
  · obtain ⟨e1, e2⟩ := C52_numbers cur level (fun name n hl hs => h ⟨name, n, hl, hs⟩)
    rw [e1, e2]
    refine ⟨fun hc => ?_, fun hn => ?_, id⟩
    · split <;> omega
    · rw [if_neg (by omega)]

/-- **C52.** Decimal numbers are understood. -/
theorem C52_decimal (cur : Int) (n : Nat) (h : n < 2 ^ 31) : setLevel cur (decimal n) = ((n : Int), (n : Int)) := by
  have hn : ∀ name m, Level name m → ¬ SameLetters (ascii name) (decimal n) := by
    intro name m hl hs
    have hmem := level_mem name m hl
    have : ∀ p ∈ priorityNames, ∃ c x, p.1 = c :: x ∧ 0x61 ≤ c.toNat := by
      intro p hp
      simp only [priorityNames, List.mem_cons, List.not_mem_nil, or_false] at hp
      rcases hp with rfl | rfl | rfl | rfl | rfl | rfl | rfl | rfl | rfl | rfl | rfl | rfl <;>
        exact ⟨_, _, rfl, by decide⟩
    obtain ⟨c, x, e, hc⟩ := this _ hmem
    simp only at e
    rw [e] at hs
    cases hd : decimal n with
    | nil => rw [hd] at hs; cases hs
    | cons d y =>
      rw [hd] at hs
      cases hs with
      | cons hl _ =>
        have := (Conf.isDigit_iff d).1 (Conf.decimal_isDigit n d (by simp [hd]))
        rcases hl with rfl | hl | hl <;> omega
  have e := C52_numbers cur (decimal n) hn
  rw [Conf.atoi_decimal n h, if_pos (by omega)] at e
  exact Prod.ext e.1 e.2

/-- What the level means: messages up to the level are printed, and none at all
with `none`. -/
theorem C52_shown (level severity : Int) : shown level severity = true ↔ level ≠ 16 ∧ severity ≤ level := by
  unfold shown noPri
  split <;> simp_all

/-- A word that is no name is taken for the number 0 (`emerg`), not for an error. -/
theorem C52_unknown_counterexample : ∃ level : Bytes, (∀ name n, Level name n → ¬ SameLetters (ascii name) level) ∧
    (∀ c ∈ level, isDigit c = false) ∧ ∀ cur, setLevel cur level = (0, 0) := by
  have hn : ∀ p ∈ priorityNames, caseEq p.1 [0x66, 0x6F, 0x6F] = false := by decide +kernel
  have hn' : ∀ name n, Level name n → ¬ SameLetters (ascii name) [0x66, 0x6F, 0x6F] := by
    intro name n hl hs
    have := hn _ (level_mem name n hl)
    rw [(caseEq_iff _ _).2 hs] at this
    cases this
  refine ⟨[0x66, 0x6F, 0x6F], hn', by decide, fun cur => ?_⟩
  have e := C52_numbers cur _ hn'
  have : atoi [0x66, 0x6F, 0x6F] = 0 := by decide +kernel
  rw [this] at e
  exact Prod.ext e.1 e.2

/-- `Debug` is a way to write `debug`. -/
example : SameLetters (ascii "debug") [0x44, 0x65, 0x62, 0x75, 0x67] ∧ Level "debug" 7 := by
  constructor
  · rw [← caseEq_iff]; decide +kernel
  · simp [Level]

end Mdns.Log
