import Verif.Model.LogTime

/-!
# C123: the time of day in the log
-/

namespace Mdns.Log

/-- A digit and its value. -/
def Digit (c : UInt8) (v : Nat) : Prop := v < 10 ∧ c.toNat = 48 + v

/-- A text is a time as read by people: two digits each for hour, minute and second, with colons between. -/
def Reads (t : Bytes) (h m s : Nat) : Prop :=
  ∃ c1 c2 c3 c4 c5 c6 v1 v2 v3 v4 v5 v6, t = [c1, c2, 0x3A, c3, c4, 0x3A, c5, c6] ∧ Digit c1 v1 ∧ Digit c2 v2 ∧ Digit c3 v3 ∧
    Digit c4 v4 ∧ Digit c5 v5 ∧ Digit c6 v6 ∧ h = 10 * v1 + v2 ∧ m = 10 * v3 + v4 ∧ s = 10 * v5 + v6

/-- What a clock can show, leap seconds included. -/
def Clock (h m s : Nat) : Prop := h < 24 ∧ m < 60 ∧ s ≤ 60

theorem twoDigits_spec (n : Nat) (h : n < 100) : ∃ a b v w, twoDigits n = some [a, b] ∧ Digit a v ∧ Digit b w ∧ n = 10 * v + w := by
  refine ⟨_, _, n / 10, n % 10, if_pos (by omega), ⟨by omega, ?_⟩, ⟨by omega, ?_⟩, by omega⟩
  · rw [UInt8.toNat_ofNat', Int.toNat_natCast]; omega
  · rw [UInt8.toNat_ofNat', Int.toNat_natCast]; omega

theorem strftime_spec (h m s : Nat) (hc : Clock h m s) (len : Nat) (hl : 8 < len) :
    ∃ t, strftime len ⟨h, m, s⟩ = some t ∧ Reads t h m s := by
  obtain ⟨h1, h2, h3⟩ := hc
  obtain ⟨a1, b1, v1, w1, e1, d1, f1, n1⟩ := twoDigits_spec h (by omega)
  obtain ⟨a2, b2, v2, w2, e2, d2, f2, n2⟩ := twoDigits_spec m (by omega)
  obtain ⟨a3, b3, v3, w3, e3, d3, f3, n3⟩ := twoDigits_spec s (by omega)
  refine ⟨[a1, b1, 0x3A, a2, b2, 0x3A, a3, b3], ?_, a1, b1, a2, b2, a3, b3, v1, w1, v2, w2, v3, w3, rfl, d1, f1, d2, f2, d3, f3, n1, n2, n3⟩
  unfold strftime
  dsimp only
  rw [e1, e2, e3]
  exact if_pos (show 8 + 1 ≤ len by omega)

/-- **C123 (time).** At the level debug, for every time the system can tell in the local zone: a buffer with room for the text
and the zero byte gets the time of day and no more; without one, or with one too small, the buffer is left alone and the time is
logged. -/
theorem C123_time_partial (level : Int) (hl : 7 ≤ level) (h m s : Nat) (hc : Clock h m s) (usec : Nat) (hu : usec < 1000000)
    (buf : Option Nat) : ∃ t, Reads t h m s ∧
      ((∃ len, buf = some len ∧ t.length + 1 ≤ len ∧ logTime level (some ⟨h, m, s⟩) usec buf = .buffer t) ∨
        (∀ len, buf = some len → len < t.length + 1) ∧ logTime level (some ⟨h, m, s⟩) usec buf = .message (0x40 :: t)) := by
  have hz : ((s : Int) + (usec : Int).tdiv 1000000) = s := by
    have : (usec : Int).tdiv 1000000 = 0 := Int.tdiv_eq_zero_of_lt (by omega) (by omega)
    omega
  have len8 : ∀ t, Reads t h m s → t.length = 8 := by
    rintro t ⟨_, _, _, _, _, _, _, _, _, _, _, _, rfl, _⟩
    rfl
  unfold logTime
  rw [if_neg (by omega)]
  dsimp only
  rw [hz]
  obtain ⟨t, et, ht⟩ := strftime_spec h m s hc 15 (by decide)
  cases buf with
  | none =>
    refine ⟨t, ht, .inr ⟨nofun, ?_⟩⟩
    dsimp only
    rw [et]
  | some len =>
    dsimp only
    by_cases h8 : len > 8
    · obtain ⟨t', et', ht'⟩ := strftime_spec h m s hc len h8
      refine ⟨t', ht', .inl ⟨len, rfl, by rw [len8 t' ht']; omega, ?_⟩⟩
      rw [if_pos h8, et']
    · refine ⟨t, ht, .inr ⟨fun n e => ?_, ?_⟩⟩
      · cases e; rw [len8 t ht]; omega
      · rw [if_neg h8, et]

/-- **C123 (quiet).** Below the level debug nothing is logged, and nothing can go wrong. -/
theorem C123_quiet (level : Int) (hl : level < 7) (tm : Option Tm) (usec : Int) (buf : Option Nat) :
    logTime level tm usec buf = .nothing := if_pos hl

/-! ### Samples -/

/-- 23:59:60, a leap second, into the smallest buffer that will do. -/
example : logTime 7 (some ⟨23, 59, 60⟩) 999999 (some 9) = .buffer [0x32, 0x33, 0x3A, 0x35, 0x39, 0x3A, 0x36, 0x30] ∧ Clock 23 59 60 := by
  refine ⟨by decide +kernel, by unfold Clock; omega⟩

/-- At the usual level a caller that wants the time in its buffer finds there what was there before. -/
theorem C123_level_counterexample : logTime 5 (some ⟨12, 0, 0⟩) 0 (some 16) = .nothing := by decide +kernel

/-- A time too far in the future for `localtime`: NULL is used. -/
theorem C123_far_counterexample : logTime 7 none 0 (some 16) = .null := by decide +kernel

/-- With a million microseconds the text may show a time that no clock shows: 12:00:61. -/
theorem C123_carry_counterexample : ∃ t, logTime 7 (some ⟨12, 0, 60⟩) 1000000 (some 16) = .buffer t ∧
    t = [0x31, 0x32, 0x3A, 0x30, 0x30, 0x3A, 0x36, 0x31] := ⟨_, by decide +kernel, rfl⟩

end Mdns.Log
