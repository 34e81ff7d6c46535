import Verif.Model.LogStart
import Verif.Props.LogSys
import Verif.Props.Options

/-!
# C121: the messages of the daemon are those its command line asks for
-/

namespace Mdns.Opt

open Mdns.CLib
open Mdns.Log (Logger Dest Means)

/-- The level the command line asks for: by the last `-l`, and `notice` without any. -/
def Asked (its : List Item) (lvl : Int) : Prop :=
  (lastOf 0x6C its = none ∧ lvl = 5) ∨ ∃ v, lastOf 0x6C its = some v ∧ Means v lvl

/-- Where messages of a severity belong, given the level, and whether syslog is to be used. -/
def Place (lvl : Int) (sys : Bool) (severity : Nat) : Dest :=
  if lvl = 16 ∨ lvl < severity then .nowhere
  else if sys then .syslog
  else if severity ≤ 4 then .stderr
  else .stdout

theorem means_fst (cur : Int) {v : Bytes} {n : Int} (h : Means v n) : (Log.setLevel cur v).1 = n := by
  rcases h with ⟨name, hl, hs⟩ | ⟨hn, rfl⟩
  · rw [Log.C52_names cur v name n hl hs]
  · exact (Log.C52_numbers cur v hn).1

theorem logger_spec (o : Opts) (sys : Bool) (h0 : 0 ≤ o.loglevel) (h30 : sys = true → o.loglevel < 30) :
    ∃ g, logger o sys = some g ∧ ∀ sev, Log.log g sev = Place o.loglevel sys sev := by
  unfold logger
  cases sys with
  | false =>
    refine ⟨_, rfl, fun sev => ?_⟩
    unfold Log.log Place Log.noPri
    dsimp only
    by_cases h16 : o.loglevel = 16
    · simp [h16]
    · rw [if_neg h16, if_neg (by simp)]
      by_cases hlt : o.loglevel < sev
      · rw [if_neg (by omega), if_pos (.inr hlt)]
      · have hp : ¬ (o.loglevel = 16 ∨ o.loglevel < sev) := by omega
        rw [if_pos (show (sev : Int) ≤ o.loglevel by omega), if_neg hp]
        by_cases h4 : sev ≤ 4
        · simp [h4, show ¬ sev > 4 by omega]
        · simp [h4, show sev > 4 by omega]
  | true =>
    have hs := (Log.setMask_spec { level := o.loglevel } h0).1 (h30 rfl)
    unfold Log.logOpen
    dsimp only
    rw [if_pos rfl, hs]
    refine ⟨_, rfl, fun sev => ?_⟩
    unfold Log.log Place Log.noPri
    dsimp only
    by_cases h16 : o.loglevel = 16
    · simp [h16]
    · rw [if_neg h16, if_pos rfl, Log.maskFor, Nat.testBit_two_pow_sub_one]
      by_cases hlt : o.loglevel < sev
      · rw [if_neg (by simp; omega), if_pos (.inr hlt)]
      · rw [if_pos (by simp; omega), if_neg (by omega), if_pos rfl]

/-- **C121 (messages).** However the options are written: a message of the daemon can be read exactly if its severity is within
the level asked for; in syslog if the daemon is in the background or `-s` is given, otherwise on the terminal, warnings and
errors on stderr.  Partial: levels are from 0 to 29, and `-n` is given at most once. -/
theorem C121_messages_partial {posix : Bool} {its : List Item} {args : List Bytes} (n : Written posix mdnsdSpec its args)
    (hg : ∀ i ∈ its, i.good) (h1 : its.count (.flag 0x6E) ≤ 1) (lvl : Int) (ha : Asked its lvl) (h0 : 0 ≤ lvl) (h30 : lvl < 30) :
    ∃ o path sys g, mdnsd posix args = .runs o path sys ∧ logger o sys = some g ∧
      (o.background = true ↔ .flag 0x6E ∉ its) ∧
      ∀ sev, readable o g sev = Place lvl (decide (.flag 0x6E ∉ its ∨ .flag 0x73 ∈ its)) sev := by
  obtain ⟨o, e, -, -, -, hb, hl, hls⟩ := C93_started n hg
  have hlvl : o.loglevel = lvl := by
    rcases ha with ⟨h, rfl⟩ | ⟨v, h, hm⟩
    · exact hl h
    · rw [hls v h (by rw [means_fst 0 hm]; exact h0), means_fst 0 hm]
  have hsys : decide (its.count (.flag 0x6E) ≤ its.count (.flag 0x73)) =
      decide (Item.flag 0x6E ∉ its ∨ Item.flag 0x73 ∈ its) := by
    rw [decide_eq_decide, ← List.count_eq_zero, ← List.count_pos_iff]
    omega
  rw [hsys] at e
  obtain ⟨g, hg1, hg2⟩ := logger_spec o (decide (Item.flag 0x6E ∉ its ∨ Item.flag 0x73 ∈ its)) (by omega) (fun _ => by omega)
  refine ⟨o, _, _, g, e, hg1, hb, fun sev => ?_⟩
  rw [hlvl] at hg2
  unfold readable
  rw [hg2]
  cases hbg : o.background with
  | false => cases Place lvl _ sev <;> rfl
  | true =>
    have hn := hb.1 hbg
    rw [decide_eq_true (Or.inl hn)]
    have hd : Place lvl true sev = .nowhere ∨ Place lvl true sev = .syslog := by
      unfold Place
      split
      · exact .inl rfl
      · exact .inr rfl
    rcases hd with e | e <;> rw [e]

/-- **C121 (background).** A daemon in the background does not write messages where nobody can read them, whatever its options. -/
theorem C121_background {posix : Bool} {args : List Bytes} {o : Opts} {path : Bytes} {sys : Bool}
    (h : mdnsd posix args = .runs o path sys) (hb : o.background = true) (g : Logger) (hg : logger o sys = some g) (sev : Nat) :
    readable o g sev = Log.log g sev ∧ (Log.log g sev = .nowhere ∨ Log.log g sev = .syslog) := by
  obtain ⟨its, n, hi⟩ := C93_understood h
  obtain ⟨o', e, -, -, -, hb', -⟩ := C93_started n hi
  rw [h] at e
  obtain ⟨rfl, -, hs⟩ := Start.runs.inj e
  have hz : its.count (.flag 0x6E) = 0 := List.count_eq_zero.2 (hb'.1 hb)
  rw [hz, decide_eq_true (Nat.zero_le _)] at hs
  subst hs
  have hsl : g.syslog = true := by
    unfold logger Log.logOpen at hg
    rw [if_pos rfl] at hg
    split at hg
    · cases hg
    · cases hg; rfl
  have hd : Log.log g sev = .nowhere ∨ Log.log g sev = .syslog := by
    unfold Log.log
    rw [hsl]
    split
    · exact .inl rfl
    · rw [if_pos rfl]
      split
      · exact .inr rfl
      · exact .inl rfl
  refine ⟨?_, hd⟩
  unfold readable
  rcases hd with e | e <;> rw [e]

/-! ### Samples -/

/-- `-n -l debug -l err` -/
def Sample.logItems : List Item := [.flag 0x6E, .value 0x6C (Log.ascii "debug"), .value 0x6C (Log.ascii "err")]

example : Written false mdnsdSpec Sample.logItems
    [[0x2D, 0x6E, 0x6C], Log.ascii "debug", [0x2D, 0x6C], Log.ascii "err"] :=
  .separate (fs := [0x6E]) (by decide) (by decide) <| .separate (fs := []) (by decide) (by decide) .nil

example : (∀ i ∈ Sample.logItems, i.good) ∧ Sample.logItems.count (.flag 0x6E) ≤ 1 ∧ Asked Sample.logItems 3 := by
  refine ⟨?_, by decide, .inr ⟨Log.ascii "err", by decide +kernel, .inl ⟨"err", by unfold Log.Level; simp, ?_⟩⟩⟩
  · simp only [Sample.logItems, List.forall_mem_cons, Item.good]
    exact ⟨.inl trivial, ⟨fun _ => by decide +kernel, fun h => absurd h (by decide)⟩,
      ⟨fun _ => by decide +kernel, fun h => absurd h (by decide)⟩, fun i m => by simp at m⟩
  · rw [← Log.caseEq_iff]; decide +kernel

/-- The first run of the daemon without options: notices are in syslog, information is not. -/
example : ∃ o g, mdnsd false [] = .runs o defaultPath true ∧ logger o true = some g ∧ readable o g 5 = .syslog ∧
    readable o g 6 = .nowhere := ⟨{}, { syslog := true, level := 5, mask := 63 }, by decide +kernel, by decide +kernel,
      by decide +kernel, by decide +kernel⟩

/-- `-l 40`: the daemon asks for a mask with a shift by 41. -/
theorem C121_shift_counterexample (posix : Bool) : ∃ o, mdnsd posix [[0x2D, 0x6C], [0x34, 0x30]] = .runs o defaultPath true ∧
    logger o true = none := ⟨{ loglevel := 40 }, by cases posix <;> decide +kernel, by decide +kernel⟩

/-- `-l -5`: the level is accepted, and the one before stays. -/
theorem C121_negative_counterexample (posix : Bool) :
    mdnsd posix [[0x2D, 0x6C], [0x2D, 0x35]] = .runs {} defaultPath true := by
  cases posix <;> decide +kernel

end Mdns.Opt
