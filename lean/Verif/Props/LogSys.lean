import Verif.Model.LogSys
import Verif.Props.Log

/-!
# C118: the log level on the terminal and in syslog
-/

namespace Mdns.Log

open Mdns.CLib

/-! ### Specification -/

/-- What a level is given as: by name, or by number. -/
def Means (s : Bytes) (v : Int) : Prop :=
  (∃ name, Level name v ∧ SameLetters (ascii name) s) ∨
    (∀ name n, Level name n → ¬ SameLetters (ascii name) s) ∧ atoi s = v

/-- The level after a history: the last one given that is not negative; `notice` if there is none. -/
inductive Current : List Call → Int → Prop
  | start : Current [] 5
  | given {h : List Call} {s : Bytes} {v : Int} (m : Means s v) (hv : 0 ≤ v) : Current (h ++ [.level s]) v
  | kept {h : List Call} {s : Bytes} {v w : Int} (c : Current h w) (m : Means s v) (hv : v < 0) :
      Current (h ++ [.level s]) w
  | opened {h : List Call} {w : Int} (c : Current h w) : Current (h ++ [.openlog]) w

/-- Where a message belongs: in syslog once that has been opened, otherwise errors and warnings in one file and the rest
in the other; and nowhere if the level does not ask for it. -/
def Belongs (h : List Call) (level : Int) (severity : Nat) : Dest :=
  if level = 16 ∨ level < severity then .nowhere
  else if .openlog ∈ h then .syslog
  else if severity ≤ 4 then .stderr
  else .stdout

/-! ### Proofs -/

theorem snoc {p : List Call → Prop} (hnil : p []) (hsnoc : ∀ l o, p l → p (l ++ [o])) (l : List Call) : p l := by
  rw [← List.reverse_reverse l]
  generalize l.reverse = r
  induction r with
  | nil => exact hnil
  | cons o r ih => rw [List.reverse_cons]; exact hsnoc _ _ ih

theorem calls_append (a b : List Call) : ∀ g, calls (a ++ b) g = (calls a g).bind (calls b) := by
  induction a with
  | nil => exact fun _ => rfl
  | cons c t ih =>
    intro g
    cases c with
    | level s => show (match logLevel g s with | none => none | some g => calls (t ++ b) g) = _
                 rw [calls]; cases logLevel g s with
                 | none => rfl
                 | some g => exact ih g
    | openlog => show (match logOpen g with | none => none | some g => calls (t ++ b) g) = _
                 rw [calls]; cases logOpen g with
                 | none => rfl
                 | some g => exact ih g

theorem setLevel_means (cur : Int) (s : Bytes) (v : Int) (h : Means s v) :
    (setLevel cur s).2 = if 0 ≤ v then v else cur := by
  rcases h with ⟨name, hl, hs⟩ | ⟨hn, rfl⟩
  · rw [C52_names cur s name v hl hs]
    have : 0 ≤ v := by
      unfold Level at hl
      simp only [List.mem_cons, List.not_mem_nil, or_false, Prod.mk.injEq] at hl
      omega
    rw [if_pos this]
  · exact (C52_numbers cur s hn).2

theorem means_exists (s : Bytes) : ∃ v, Means s v := by
  rcases Classical.em (∃ name n, Level name n ∧ SameLetters (ascii name) s) with ⟨name, n, h, hs⟩ | h
  · exact ⟨n, .inl ⟨name, h, hs⟩⟩
  · exact ⟨atoi s, .inr ⟨fun name n hl hs => h ⟨name, n, hl, hs⟩, rfl⟩⟩

/-- The level is never negative, and there is one after every history. -/
theorem Current.nonneg {h : List Call} {v : Int} (c : Current h v) : 0 ≤ v := by
  induction c with
  | start => omega
  | given _ hv => exact hv
  | kept _ _ _ ih => exact ih
  | opened _ ih => exact ih

/-- The level after a history, computed. -/
def lv (h : List Call) : Int :=
  h.foldl (fun cur c => match c with | .level s => (setLevel cur s).2 | .openlog => cur) 5

theorem lv_level (h : List Call) (s : Bytes) : lv (h ++ [.level s]) = (setLevel (lv h) s).2 := by
  simp [lv, List.foldl_append]

theorem lv_open (h : List Call) : lv (h ++ [.openlog]) = lv h := by
  simp [lv, List.foldl_append]

theorem Current.eq {h : List Call} {v : Int} (c : Current h v) : v = lv h := by
  induction c with
  | start => rfl
  | given m hv => rw [lv_level, setLevel_means _ _ _ m, if_pos hv]
  | kept c m hv ih => rw [lv_level, setLevel_means _ _ _ m, if_neg (by omega), ih]
  | opened c ih => rw [lv_open, ih]

theorem current_lv (h : List Call) : Current h (lv h) := by
  induction h using snoc with
  | hnil => exact .start
  | hsnoc l o ih =>
    cases o with
    | openlog => rw [lv_open]; exact .opened ih
    | level s =>
      obtain ⟨v, hv⟩ := means_exists s
      rw [lv_level, setLevel_means _ _ _ hv]
      split
      · rename_i h; exact .given hv h
      · exact .kept ih hv (by omega)

/-- The mask for a level. -/
def maskFor (v : Int) : Nat := 2 ^ (v.toNat + 1) - 1

theorem setMask_spec (g : Logger) (h0 : 0 ≤ g.level) :
    (g.level < 30 → setMask g = some { g with mask := maskFor g.level }) ∧ (30 ≤ g.level → setMask g = none) := by
  unfold setMask upTo
  constructor
  · intro h
    rw [if_pos ⟨h0, h⟩]
    dsimp only
    rw [if_neg]
    · rfl
    · have : 2 ^ (g.level.toNat + 1) ≥ 2 := by
        rw [Nat.pow_succ]
        have := Nat.pow_pos (n := g.level.toNat) (show 0 < 2 by decide)
        omega
      omega
  · intro h
    rw [if_neg (by omega)]

/-- Some mask was asked for that is not defined. -/
def Undefined (h : List Call) : Prop :=
  ∃ pre post v, h = pre ++ post ∧ .openlog ∈ pre ∧ Current pre v ∧ 30 ≤ v

/-- The state after a history. -/
theorem calls_spec (h : List Call) : (calls h {} = none ∧ Undefined h) ∨
    ∃ g, calls h {} = some g ∧ g.level = lv h ∧ (g.syslog = true ↔ .openlog ∈ h) ∧
      (g.syslog = true → g.level < 30 ∧ g.mask = maskFor g.level) := by
  induction h using snoc with
  | hnil => exact .inr ⟨{}, rfl, rfl, by simp, by simp⟩
  | hsnoc l o ih =>
    have hcur := current_lv (l ++ [o])
    rcases ih with ⟨h1, pre, post, v, rfl, h2⟩ | ⟨g, hg, hc, ho, hm⟩
    · exact .inl ⟨by rw [calls_append, h1]; rfl, pre, post ++ [o], v, by simp, h2⟩
    · rw [calls_append, hg]
      cases o with
      | openlog =>
        rw [lv_open] at hcur ⊢
        have hs := setMask_spec g (by rw [hc]; exact hcur.nonneg)
        have e : (some g).bind (calls [.openlog]) = logOpen g := by
          show (match logOpen g with | none => none | some g => calls [] g) = _
          cases logOpen g <;> rfl
        rw [e]
        unfold logOpen
        by_cases hlt : g.level < 30
        · rw [hs.1 hlt]
          exact .inr ⟨_, rfl, hc, by simp, fun _ => ⟨hlt, rfl⟩⟩
        · rw [hs.2 (by omega)]
          exact .inl ⟨rfl, l ++ [.openlog], [], lv l, by simp, by simp, hcur, by omega⟩
      | level s =>
        rw [lv_level, ← hc] at hcur ⊢
        have e : (some g).bind (calls [.level s]) = logLevel g s := by
          show (match logLevel g s with | none => none | some g => calls [] g) = _
          cases logLevel g s <;> rfl
        rw [e]
        unfold logLevel
        dsimp only
        cases hb : g.syslog with
        | false =>
          refine .inr ⟨_, rfl, rfl, ?_, fun h => by cases h⟩
          have : ¬ Call.openlog ∈ l := fun m => by rw [ho.2 m] at hb; cases hb
          simp [this]
        | true =>
          have hs := setMask_spec { g with level := (setLevel g.level s).2, syslog := true } hcur.nonneg
          have hl : Call.openlog ∈ l := ho.1 hb
          by_cases hlt : (setLevel g.level s).2 < 30
          · exact .inr ⟨_, (if_pos rfl).trans (hs.1 hlt), rfl, by simp [hl], fun _ => ⟨hlt, rfl⟩⟩
          · exact .inl ⟨(if_pos rfl).trans (hs.2 (by show 30 ≤ (setLevel g.level s).2; omega)), l ++ [.level s], [], _,
              by simp, List.mem_append_left _ hl, hcur, by omega⟩

/-- **C118 (same).** After any history of calls in which syslog is not used with a level of 30 or more: every message goes
where it belongs, so that the level means the same for syslog as for the terminal, in whatever order the two functions
were called. -/
theorem C118_same_partial (h : List Call) (hd : ¬ Undefined h) (v : Int) (hv : Current h v) (severity : Nat)
    (hs : severity ≤ 7) : ∃ g, calls h {} = some g ∧ log g severity = Belongs h v severity := by
  rcases calls_spec h with ⟨-, hu⟩ | ⟨g, hg, hc, ho, hm⟩
  · exact absurd hu hd
  · refine ⟨g, hg, ?_⟩
    have e := hv.eq
    rw [← hc] at e
    subst e
    unfold log Belongs noPri
    by_cases h16 : g.level = 16
    · simp [h16]
    · rw [if_neg h16]
      cases hb : g.syslog with
      | true =>
        rw [if_pos rfl, (hm hb).2, maskFor, Nat.testBit_two_pow_sub_one]
        have hl := ho.1 hb
        have := hv.nonneg
        by_cases hlt : g.level < severity
        · rw [if_neg (by simp; omega), if_pos (.inr hlt)]
        · rw [if_pos (by simp; omega), if_neg (by omega), if_pos hl]
      | false =>
        have hl : ¬ Call.openlog ∈ h := fun m => by rw [ho.2 m] at hb; cases hb
        rw [if_neg (by simp)]
        by_cases hlt : g.level < severity
        · rw [if_neg (by omega), if_pos (.inr hlt)]
        · rw [if_pos (by omega)]
          by_cases h4 : severity ≤ 4
          · rw [if_neg (by omega), if_neg (by omega), if_neg hl, if_pos h4]
          · rw [if_pos (by omega), if_neg (by omega), if_neg hl, if_neg h4]

/-- **C118 (defined).** These are the only histories with undefined behaviour. -/
theorem C118_defined_iff (h : List Call) : calls h {} = none ↔ Undefined h := by
  constructor
  · intro e
    rcases calls_spec h with ⟨-, hu⟩ | ⟨g, hg, -⟩
    · exact hu
    · rw [e] at hg; cases hg
  · rintro ⟨pre, post, v, rfl, hm, hc, hv⟩
    rw [calls_append]
    rcases calls_spec pre with ⟨e, -⟩ | ⟨g, -, hl, ho, hm'⟩
    · rw [e]; rfl
    · have := (hm' (ho.2 hm)).1
      rw [hl, ← hc.eq] at this
      omega

/-- There is exactly one level after each history. -/
theorem C118_level (h : List Call) : ∃ v, Current h v ∧ ∀ w, Current h w → w = v :=
  ⟨_, current_lv h, fun _ c => c.eq⟩

/-! ### Samples -/

/-- The options `-l debug -s`, and later a lower level. -/
example : calls [.level (ascii "debug"), .openlog, .level (ascii "WARN")] {} = some { syslog := true, level := 4, mask := 31 } ∧
    log { syslog := true, level := 4, mask := 31 } 4 = .syslog ∧
    log { syslog := true, level := 4, mask := 31 } 5 = .nowhere := by decide +kernel

/-- Such a history is not undefined. -/
example : ¬ Undefined [.level (ascii "debug"), .openlog, .level (ascii "WARN")] := by
  rw [← C118_defined_iff]
  decide +kernel

/-- With `-s -l 40` the mask is asked for with a shift by 41. -/
theorem C118_shift_counterexample : ∃ n : Nat, calls [.level (decimal n), .openlog] {} = none ∧
    Current [.level (decimal n), .openlog] n ∧ n = 40 :=
  ⟨40, by decide +kernel, by
    have h := current_lv [.level (decimal 40), .openlog]
    rwa [show lv [.level (decimal 40), .openlog] = ((40 : Nat) : Int) by decide +kernel] at h, rfl⟩

end Mdns.Log
