import Verif.Lemmas.Sleeping
import Verif.Props.Sweep

/-!
# C41, C42: `mdnsd_sleep`
-/

namespace Mdns

/-- The kinds of work that wait: responses, probes, announcements, questions. -/
def D.waiting (d : D Ptrs) : List Nat :=
  (if d.q.walk .pause = [] then [] else [0]) ++ (if d.q.walk .probing = [] then [] else [1]) ++
    (if d.q.walk .publish = [] then [] else [2]) ++ if d.c.checkqlist = 0 then [] else [3]

theorem one_kind {a b c : List Nat} {k : Nat} (h : ((if a = [] then [] else [0]) ++ (if b = [] then [] else [1]) ++
    (if c = [] then [] else [2]) ++ if k = 0 then [] else [3]).length ≤ 1) :
    (a ≠ [] → b = [] ∧ c = [] ∧ k = 0) ∧ (b ≠ [] → c = [] ∧ k = 0) ∧ (c ≠ [] → k = 0) := by
  by_cases h1 : a = [] <;> by_cases h2 : b = [] <;> by_cases h3 : c = [] <;> by_cases h4 : k = 0 <;> simp_all

/-- C41: the microseconds `mdnsd_sleep` returns are at most 1000000 (they may be exactly that, see
`C41_usec_counterexample`).

If work of at most one kind waits, then `mdnsd_out` has nothing to send at any time before the
time to sleep has passed; so this is not too long.  If questions wait, then it is too long by up to
the microseconds of the current time, see `C41_fraction_counterexample`.  It may also be too long
if work of several kinds waits, see `C41_mixed_counterexample`. -/
theorem C41_sleep_partial {env : Env} {d d1 : D Ptrs} (h : Reach env d) {now t : TV}
    (e : Mdns.step env (.sleep now) d = .ok (.time t, d1)) :
    t.usec ≤ 1000000 ∧ (d.waiting.length ≤ 1 → ∀ (now' : TV) ret m to d2, OpSafe env d1.c d1.q.walk (.send now') →
      now.us ≤ now'.us → now'.us < now.us + t.us - (if d.c.checkqlist = 0 then 0 else now.usec) →
      Mdns.step env (.send now') d1 = .ok (.sent ret m to, d2) → ret = 0 ∧ m.ops = []) := by
  have hs : OpSafe env d.c d.q.walk (.sleep now) := trivial
  have hr1 := h.step hs e
  have hd := h.did hs e
  refine ⟨?_, fun hw now' ret m to d2 hs' hle hlt e' => ?_⟩
  · generalize d1.c = c', d1.lists = l' at hd
    cases hd with
    | sleep n => cases n <;> first | exact rounded_usec _ | exact Nat.zero_le _
  · have hd' := hr1.did hs' e'
    obtain ⟨w1, w2, w3⟩ := one_kind (a := d.lists.q .pause) (b := d.lists.q .probing) (c := d.lists.q .publish)
      (k := d.c.checkqlist) hw
    generalize d1.c = c', d1.lists = l' at hd hd'
    generalize d2.c = c2, d2.lists = l2 at hd'
    cases hd' with
    | send n' =>
      cases hd with
      | sleep n =>
        cases n with
        | busy =>
          exfalso
          have : ({} : TV).us = 0 := rfl
          rw [this] at hlt
          split at hlt <;> omega
        | pause hu h1 =>
          obtain ⟨h2, h3, h4⟩ := w1 h1
          rw [if_pos h4, rounded_us, tvdiff_us] at hlt
          refine n'.nothing hu.1 hu.2 (fun _ => ?_) (fun h => absurd h2 h) (fun h => absurd h3 h) fun h => absurd h4 h
          show now'.us < d.c.pause.us
          simp only [TV.us] at *
          omega
        | probing hu h1 h2 =>
          obtain ⟨h3, h4⟩ := w2 h2
          rw [if_pos h4, rounded_us, tvdiff_us] at hlt
          refine n'.nothing hu.1 hu.2 (fun h => absurd h1 h) (fun _ => ?_) (fun h => absurd h3 h) fun h => absurd h4 h
          show now'.us < d.c.probe.us
          simp only [TV.us] at *
          omega
        | publish hu h1 h2 h3 =>
          have h4 := w3 h3
          rw [if_pos h4, rounded_us, tvdiff_us] at hlt
          refine n'.nothing hu.1 hu.2 (fun h => absurd h1 h) (fun h => absurd h2 h) (fun _ => .inl ?_) fun h => absurd h4 h
          show now'.us < d.c.publish.us
          simp only [TV.us] at *
          omega
        | query hu h1 h2 h3 h4 =>
          rw [if_neg h4, rounded_us] at hlt
          refine n'.nothing hu.1 hu.2 (fun h => absurd h1 h) (fun h => absurd h2 h) (fun h => absurd h3 h) fun _ => ?_
          show now'.sec < d.c.checkqlist
          simp only [TV.us] at *
          omega
        | gc hu h1 h2 h3 h4 =>
          exfalso
          rw [if_pos h4, rounded_us] at hlt
          simp only [TV.us] at *
          omega
        | @idle ex l' hu h1 h2 h3 h4 h5 i o hp he hh =>
          rw [if_pos h4, rounded_us] at hlt
          have he2 : 2 < ex := by
            by_cases h : ex > 2
            · exact h
            · rw [if_neg h] at hlt
              simp only [TV.us] at *
              omega
          refine n'.nothing hu.1 (o _ (by decide)) (fun h => ?_) (fun h => absurd (o _ (by decide)) h)
            (fun h => absurd (o _ (by decide)) h) fun h => absurd h4 h
          obtain ⟨r, rest, hq⟩ := List.exists_cons_of_ne_nil h
          obtain ⟨i, mi, hr, x, hx, hl⟩ := (hp r).mp (by rw [hq]; simp)
          have := hh i mi r x hr hx
          omega

/-! ### Concrete cases -/

namespace Sample

/-- What `mdnsd_sleep` returns, and the state after it. -/
def sleepAt (now : TV) (d : D Ptrs) : Option (TV × D Ptrs) :=
  match Mdns.step quiet (.sleep now) d with
  | .ok (.time t, d') => some (t, d')
  | _ => none

theorem sleep_of {d : D Ptrs} {now : TV} {p : TV × D Ptrs} (h : sleepAt now d = some p) :
    Mdns.step quiet (.sleep now) d = .ok (.time p.1, p.2) := by
  unfold sleepAt at h
  split at h
  · next e => cases h; exact e
  · cases h

/-- `mdnsd_sleep` and then `mdnsd_out`. -/
def sleepSend (now now' : TV) (d : D Ptrs) : Option ((TV × D Ptrs) × (Nat × Out × Addr × D Ptrs)) :=
  (sleepAt now d).bind fun p => (sendAt now' p.2).map fun q => (p, q)

theorem sleepSend_of {d : D Ptrs} {now now' : TV} {p : TV × D Ptrs} {q : Nat × Out × Addr × D Ptrs}
    (h : sleepSend now now' d = some (p, q)) : Mdns.step quiet (.sleep now) d = .ok (.time p.1, p.2) ∧
      Mdns.step quiet (.send now') p.2 = .ok (.sent q.1 q.2.1 q.2.2.1, q.2.2.2) := by
  unfold sleepSend at h
  rw [Option.bind_eq_some_iff] at h
  obtain ⟨p', h1, h2⟩ := h
  rw [Option.map_eq_some_iff] at h2
  obtain ⟨q', h2, h3⟩ := h2
  cases h3
  exact ⟨sleep_of h1, send_of h2⟩

/-- A record that was announced once. -/
def once1 : List Op := [.shared (nm 97) 16 120, .setRaw 0 [1, 2], .send (at_ 100)]

/-- C41: half a second before the second announcement is due. -/
example : ∃ d d1, Reach quiet d ∧ Mdns.step quiet (.sleep ⟨101, 500000⟩) d = .ok (.time ⟨0, 500000⟩, d1) ∧
    d.waiting.length = 1 ∧ d.c.checkqlist = 0 := by
  have hr : Reach quiet (trace quiet once1 fresh).2 := (hist_of (by decide +kernel)).reach
  obtain ⟨p, h1, h2⟩ := any_some (o := sleepAt ⟨101, 500000⟩ (trace quiet once1 fresh).2)
    (f := fun p => decide (p.1 = ⟨0, 500000⟩)) (by decide +kernel)
  have h2 := of_decide_eq_true h2
  have e := sleep_of h1
  rw [h2] at e
  exact ⟨_, _, hr, e, by decide +kernel, by decide +kernel⟩

end Sample

open Sample in
/-- C41: one second before an announcement is due the time to sleep has 1000000 microseconds
(`libmdnsd/mdnsd.c:1456` corrects this only above 1000000). -/
theorem C41_usec_counterexample : ∃ d d1, Reach quiet d ∧
    Mdns.step quiet (.sleep (at_ 101)) d = .ok (.time ⟨0, 1000000⟩, d1) := by
  have hr : Reach quiet (trace quiet once1 fresh).2 := (hist_of (by decide +kernel)).reach
  obtain ⟨p, h1, h2⟩ := any_some (o := sleepAt (at_ 101) (trace quiet once1 fresh).2)
    (f := fun p => decide (p.1 = ⟨0, 1000000⟩)) (by decide +kernel)
  have h2 := of_decide_eq_true h2
  have e := sleep_of h1
  rw [h2] at e
  exact ⟨_, _, hr, e⟩

open Sample in
/-- C41: a question is due after 0.1 seconds, and would be sent then, but `mdnsd_sleep` returns one
second, because it leaves out the microseconds of the current time (`libmdnsd/mdnsd.c:1500`). -/
theorem C41_fraction_counterexample : ∃ d d1 d2 m to, Reach quiet d ∧
    Mdns.step quiet (.sleep ⟨100, 900000⟩) d = .ok (.time ⟨1, 0⟩, d1) ∧
    OpSafe quiet d1.c d1.q.walk (.send (at_ 101)) ∧ d.waiting.length = 1 ∧
    Mdns.step quiet (.send (at_ 101)) d1 = .ok (.sent 1 m to, d2) := by
  have hr : Reach quiet (trace quiet [.query (nm 97) 12 (some 7), .send (at_ 100)] fresh).2 :=
    (hist_of (by decide +kernel)).reach
  obtain ⟨⟨p, q⟩, h1, h2⟩ := any_some (o := sleepSend ⟨100, 900000⟩ (at_ 101)
    (trace quiet [.query (nm 97) 12 (some 7), .send (at_ 100)] fresh).2)
    (f := fun p => decide (p.1.1 = ⟨1, 0⟩ ∧ p.2.1 = 1)) (by decide +kernel)
  obtain ⟨h2, h3⟩ := of_decide_eq_true h2
  obtain ⟨e1, e2⟩ := sleepSend_of h1
  dsimp only at h2 h3
  rw [h2] at e1
  rw [h3] at e2
  exact ⟨_, _, _, _, _, hr, e1, .inl quiet_keeps, by decide +kernel, e2⟩

open Sample in
/-- C41: a question is due after one second, and would be sent then, but `mdnsd_sleep` returns two
seconds, because an announcement is due then (`libmdnsd/mdnsd.c:1491-1495` looks at nothing else
if announcements wait). -/
theorem C41_mixed_counterexample : ∃ d d1 d2 m to, Reach quiet d ∧
    Mdns.step quiet (.sleep (at_ 100)) d = .ok (.time ⟨1, 1000000⟩, d1) ∧
    OpSafe quiet d1.c d1.q.walk (.send (at_ 101)) ∧
    Mdns.step quiet (.send (at_ 101)) d1 = .ok (.sent 1 m to, d2) := by
  have hr : Reach quiet (trace quiet (once1 ++ [.query (nm 97) 12 (some 7), .send (at_ 100)]) fresh).2 :=
    (hist_of (by decide +kernel)).reach
  obtain ⟨⟨p, q⟩, h1, h2⟩ := any_some (o := sleepSend (at_ 100) (at_ 101) (trace quiet
    (once1 ++ [.query (nm 97) 12 (some 7), .send (at_ 100)]) fresh).2)
    (f := fun p => decide (p.1.1 = ⟨1, 1000000⟩ ∧ p.2.1 = 1)) (by decide +kernel)
  obtain ⟨h2, h3⟩ := of_decide_eq_true h2
  obtain ⟨e1, e2⟩ := sleepSend_of h1
  dsimp only at h2 h3
  rw [h2] at e1
  rw [h3] at e2
  exact ⟨_, _, _, _, _, hr, e1, .inl quiet_keeps, e2⟩

end Mdns
