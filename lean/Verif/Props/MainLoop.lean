import Verif.Model.MainLoop
import Verif.Lemmas.Sleeping

/-!
# C66: the waiting times of the daemon
-/

namespace Mdns.MainLoop

/-! ### Specification -/

/-- `select` leaves no more than it was given, and parts of a second. -/
def Waited (tv left : TV) : Prop := left.sec ≤ tv.sec ∧ left.usec ≤ 1000000

/-- A run of the daemon: `select` leaves no more than it got, and the contexts' waiting times have parts of a second
(`C41_sleep_partial`). -/
inductive Run : List (Ev × Bool × St) → St → Prop where
  | start : Run [] {}
  | again {h s} (left : TV) (reload : Bool) : Run h s → Waited s.tv left →
    Run (h ++ [(.again left reload, round s (.again left reload))]) (round s (.again left reload)).2
  | pass {h s} (left : TV) (now : Nat) (changed : Bool) (nexts : List TV) : Run h s → Waited s.tv left →
    (∀ n ∈ nexts, n.usec ≤ 1000000) →
    Run (h ++ [(.pass left now changed nexts, round s (.pass left now changed nexts))]) (round s (.pass left now changed nexts)).2

/-! ### Proofs -/

theorem shorter_le (tv next : TV) : (shorter tv next).sec ≤ tv.sec ∧ (shorter tv next).sec ≤ next.sec ∧
    (shorter tv next = tv ∨ shorter tv next = next) := by
  unfold shorter
  split <;> simp <;> omega

theorem foldl_shorter : ∀ (l : List TV) (tv : TV), (l.foldl shorter tv).sec ≤ tv.sec ∧ (∀ n ∈ l, (l.foldl shorter tv).sec ≤ n.sec) ∧
    (l.foldl shorter tv = tv ∨ l.foldl shorter tv ∈ l)
  | [], tv => ⟨Nat.le_refl _, (by intro _ h; cases h), .inl rfl⟩
  | a :: l, tv => by
    obtain ⟨h1, h2, h3⟩ := shorter_le tv a
    obtain ⟨i1, i2, i3⟩ := foldl_shorter l (shorter tv a)
    refine ⟨Nat.le_trans i1 h1, fun n m => ?_, ?_⟩
    · cases m with
      | head => exact Nat.le_trans i1 h2
      | tail _ m => exact i2 n m
    · rcases i3 with e | m
      · rcases h3 with e' | e'
        · exact .inl (e.trans e')
        · refine .inr ?_
          show l.foldl shorter (shorter tv a) ∈ a :: l
          rw [e, e']
          exact .head _
      · exact .inr (.tail _ m)

/-- C66: in every run, after a round in which the contexts were looked after, the daemon waits at most one second longer
than each context asked for, at most one second longer than ten seconds, and not shorter than all of them unless ten
seconds.  Missing: not longer than each context asked for, and at once after the configuration has been read again; both
are not so (`C66_fraction_counterexample`, `C66_reload_counterexample`). -/
theorem C66_waits_partial {h : List (Ev × Bool × St)} {s : St} (r : Run h s) (left : TV) (now : Nat) (changed : Bool) (nexts : List TV)
    (w : Waited s.tv left) (hn : ∀ n ∈ nexts, n.usec ≤ 1000000) :
    let tv := (round s (.pass left now changed nexts)).2.tv
    (∀ n ∈ nexts, tv.us ≤ n.us + 1000000) ∧ tv.us ≤ 11000000 ∧ (tv ∈ nexts ∨ 10000000 ≤ tv.us) := by
  have ht : (sysTimeout now s).2.timeout = sysInterval := by
    have : s.timeout = 0 ∨ s.timeout = sysInterval := by
      clear w
      induction r with
      | start => exact .inl rfl
      | again => assumption
      | pass left now changed nexts _ _ _ ih =>
        show (sysTimeout now _).2.timeout = 0 ∨ (sysTimeout now _).2.timeout = sysInterval
        unfold sysTimeout
        split
        · exact .inr rfl
        · split <;> exact ih
    unfold sysTimeout
    split
    · rfl
    · split <;> simp_all
  intro tv
  have e : tv = nexts.foldl shorter { left with sec := sysInterval } := by
    show nexts.foldl shorter { left with sec := (sysTimeout now s).2.timeout } = _
    rw [ht]
  obtain ⟨f1, f2, f3⟩ := foldl_shorter nexts { left with sec := sysInterval }
  rw [← e] at f1 f2 f3
  have u : tv.usec ≤ 1000000 := by
    rcases f3 with e | m
    · rw [e]; exact w.2
    · exact hn tv m
  have f1 : tv.sec ≤ 10 := f1
  refine ⟨fun n m => ?_, ?_, ?_⟩
  · have := f2 n m
    simp only [TV.us]
    omega
  · simp only [TV.us]
    omega
  · rcases f3 with e | m
    · right
      rw [e]
      simp only [TV.us, sysInterval]
      omega
    · exact .inl m

/-- C66: in every run, in every round in which the contexts are looked after, the interfaces are looked up unless that, or
the first such round, was less than ten seconds ago. -/
theorem C66_rescans {h : List (Ev × Bool × St)} {s : St} (r : Run h s) (left : TV) (now : Nat) (changed : Bool) (nexts : List TV)
    (no : (round s (.pass left now changed nexts)).1 = false) (first : ∃ l n c ns b s', (Ev.pass l n c ns, b, s') ∈ h) :
    ∃ h1 h2 l n c ns b s', h = h1 ++ (Ev.pass l n c ns, b, s') :: h2 ∧ now < n + 10 ∧
      (b = true ∨ ∀ e ∈ h1, ∃ l r, e.1 = .again l r) := by
  have inv : (s.timeout = 0 ∧ ∀ e ∈ h, ∃ l r, e.1 = .again l r) ∨ (s.timeout ≠ 0 ∧ ∃ h1 h2 l n c ns b s',
      h = h1 ++ (Ev.pass l n c ns, b, s') :: h2 ∧ n = s.before ∧ (b = true ∨ ∀ e ∈ h1, ∃ l r, e.1 = .again l r)) := by
    clear no first
    induction r with
    | start => exact .inl ⟨rfl, by intro _ h; cases h⟩
    | @again h s left reload _ _ ih =>
      rcases ih with ⟨h0, ha⟩ | ⟨h0, h1, h2, l, n, c, ns, b, s', e, e', x⟩
      · refine .inl ⟨h0, fun e m => ?_⟩
        rcases List.mem_append.mp m with m | m
        · exact ha e m
        · rw [List.mem_singleton] at m
          exact ⟨left, reload, by rw [m]⟩
      · exact .inr ⟨h0, h1, h2 ++ [(.again left reload, round s (.again left reload))], l, n, c, ns, b, s', by rw [e]; simp, e', x⟩
    | @pass h s left now changed nexts _ _ _ ih =>
      right
      rcases ih with ⟨h0, ha⟩ | ⟨h0, h1, h2, l, n, c, ns, b, s', e, e', x⟩
      · refine ⟨?_, h, [], left, now, changed, nexts, _, _, rfl, ?_, .inr ha⟩
        · show (sysTimeout now s).2.timeout ≠ 0
          simp [sysTimeout, h0, sysInterval]
        · show now = (sysTimeout now s).2.before
          simp [sysTimeout, h0]
      · by_cases d : s.before + sysInterval ≤ now
        · refine ⟨?_, h, [], left, now, changed, nexts, _, _, rfl, ?_, .inl ?_⟩
          · show (sysTimeout now s).2.timeout ≠ 0
            simp [sysTimeout, h0, d]
          · show now = (sysTimeout now s).2.before
            simp [sysTimeout, h0, d]
          · show (changed || (sysTimeout now s).1) = true
            simp [sysTimeout, h0, d]
        · refine ⟨?_, h1, h2 ++ [(.pass left now changed nexts, round s (.pass left now changed nexts))], l, n, c, ns, b, s',
            by rw [e]; simp, ?_, x⟩
          · show (sysTimeout now s).2.timeout ≠ 0
            simp [sysTimeout, h0, d]
          · show n = (sysTimeout now s).2.before
            simp [sysTimeout, h0, d, e']
  rcases inv with ⟨_, ha⟩ | ⟨h0, h1, h2, l, n, c, ns, b, s', e, e', x⟩
  · obtain ⟨l, n, c, ns, b, s', m⟩ := first
    obtain ⟨l', r', hl⟩ := ha _ m
    cases hl
  · refine ⟨h1, h2, l, n, c, ns, b, s', e, ?_, x⟩
    have : (changed || (sysTimeout now s).1) = false := no
    simp only [Bool.or_eq_false_iff] at this
    have h2 := this.2
    unfold sysTimeout at h2
    rw [if_neg h0] at h2
    rw [e']
    split at h2
    · cases h2
    · rename_i d
      unfold sysInterval at d
      omega

/-! ### Witnesses -/

/-- Two contexts: ten seconds and more at first, then 3.9 and 3.1 seconds. -/
theorem sample : ∃ h, Run h ⟨⟨3, 900000⟩, 10, 105⟩ := by
  have r := Run.pass ⟨4, 0⟩ 112 false [⟨3, 900000⟩, ⟨3, 100000⟩]
    (.again ⟨5, 0⟩ false (.pass ⟨0, 0⟩ 105 false [⟨12, 0⟩, ⟨86400, 500000⟩] .start (by simp [Waited]) (by simp))
      (by simp [Waited, round, sysTimeout, shorter, sysInterval])) (by simp [Waited, round]) (by simp)
  exact ⟨_, r⟩

/-- C66: with two contexts the daemon waits longer than the second asked for. -/
theorem C66_fraction_counterexample : ∃ h s left now nexts n, Run h s ∧ Waited s.tv left ∧ (∀ n ∈ nexts, n.usec < 1000000) ∧ n ∈ nexts ∧
    n.us < (round s (.pass left now false nexts)).2.tv.us :=
  ⟨[], {}, {}, 105, [⟨3, 900000⟩, ⟨3, 100000⟩], ⟨3, 100000⟩, .start, by simp [Waited], by simp, by simp, by decide⟩

/-- C66: after the configuration has been read again, and new records wait to be probed, the daemon goes on waiting for
the time that was left. -/
theorem C66_reload_counterexample : ∃ h s left, Run h s ∧ Waited s.tv left ∧ (round s (.again left true)).2.tv.us = 9000000 := by
  obtain ⟨h, r⟩ : ∃ h, Run h ⟨⟨10, 0⟩, 10, 105⟩ := ⟨_, .pass ⟨0, 0⟩ 105 false [⟨12, 0⟩] .start (by simp [Waited]) (by simp)⟩
  exact ⟨h, _, ⟨9, 0⟩, r, by simp [Waited], by decide⟩

/-- The interfaces are looked up after ten seconds. -/
example : (round ⟨⟨3, 900000⟩, 10, 105⟩ (.pass ⟨0, 0⟩ 114 false [])).1 = false ∧
    (round ⟨⟨3, 900000⟩, 10, 105⟩ (.pass ⟨0, 0⟩ 115 false [])).1 = true := by decide

end Mdns.MainLoop
