import Verif.Lemmas.Stamp
import Verif.Props.Sleep

/-!
# C42: published records are sent again in time
-/

namespace Mdns

/-- Nothing waits: no answers, probes, announcements or questions. -/
def D.rests (d : D Ptrs) : Prop := d.c.uanswers = [] ∧ (∀ w, d.q.walk w = []) ∧ d.c.checkqlist = 0

/-- C42: a record was last put in an answer at time `T`, in a packet for everyone.  Later nothing waits
and `mdnsd_sleep` is called.  Then the time to sleep ends at least two seconds before the record
expires at the receivers; or the record is queued, and the next packets made from `1.000119`
seconds later on send it to everyone.

Missing: only the first record of each hash bucket is looked at, see `C42_bucket_counterexample`,
and none is looked at while there are questions to ask, see `C42_query_counterexample`.  An answer
to only one receiver counts like one to all, see `C42_unicast_counterexample`. -/
theorem C42_refresh_partial {env : Env} {pre mid : List Call} {a : OpOut} {r : Nat} {T T' : TV} {d : D Ptrs}
    (k : Quieted env (pre ++ (.send T, a) :: mid) T' d) (up : d.c.shutdown = false)
    (hs : Call.shows .an r (.send T, a) = true) (hm : ∀ k ∈ mid, (Section.an, r) ∉ k.2.tags) {x : Rec}
    (hx : d.c.recs r = some x) (first : (d.c.published (bucket x.rr.name sprime)).head? = some r) (hd : d.rests)
    {now t : TV} (hg : now.sec ≤ d.c.expireall) {d1 : D Ptrs} (e : Mdns.step env (.sleep now) d = .ok (.time t, d1)) :
    now.sec + t.sec + 2 ≤ T.sec + x.rr.ttl ∨
      ∃ N, ∀ h d', Calls env d1 h d' → (∀ k ∈ h, ∃ t', k.1 = .send t' ∧ now.us + 1000119 ≤ t'.us) → N ≤ h.length →
        ∃ k ∈ h, Call.shows .an r k = true := by
  obtain ⟨d2, d3, n2, hso, e2, n3, cs⟩ := k.hist.at
  obtain ⟨hl, hsz⟩ := (n2.reach.did hso e2).last n2.reach.inv n2.reach.uni hs
  have hlast : x.lastSent = T := (cs.last n3.reach hsz hm hl x hx).2
  have hr := k.hist.reach
  have hw : d.c.pause.usec < 1000119 := by
    obtain ⟨cls, frame, now0, h1, h2, n⟩ := k.calls
    exact (n.within h1 h2 k.past).usec.2
  have hso1 : OpSafe env d.c d.q.walk (.sleep now) := trivial
  have hr1 := hr.step hso1 e
  have hdid := hr.did hso1 e
  have hf := k.fits
  have hp := k.plain
  obtain ⟨hu, hq, hc⟩ := hd
  have hq : ∀ w, d.lists.q w = [] := hq
  have C33 := @C33_queued_sent_partial env d1 hr1
  have hlists : ∀ w, d1.lists.q w = d1.q.walk w := fun _ => rfl
  simp only [← hlists] at C33
  generalize hc1 : d1.c = c1, hl1 : d1.lists = l1 at hdid C33
  cases hdid with
  | sleep n =>
    cases n with
    | busy h => exact absurd h (by simp [hu, hq])
    | pause _ h => exact absurd (hq _) h
    | probing _ _ h => exact absurd (hq _) h
    | publish _ _ _ h => exact absurd (hq _) h
    | query _ _ _ _ h => exact absurd hc h
    | gc _ _ _ _ _ h => omega
    | @idle ex l' _ _ _ _ _ _ i o hst he hh hex hz =>
      have mi : bucket x.rr.name sprime ∈ List.range sprime := List.mem_range.mpr (bucket_lt_s _)
      have hle := hh _ mi r x first hx
      have hleft : (d.c.awake now).left x = (T.sec : Int) + x.rr.ttl - now.sec := by
        unfold Core.left
        rw [hlast]
        rfl
      rw [hleft] at hle
      rw [rounded_sec]
      dsimp only
      split
      · left
        omega
      · rename_i hnot
        by_cases h2 : (T.sec : Int) + x.rr.ttl - now.sec ≤ 2
        · right
          have hmem : r ∈ l1.q .pause := (hst r).mpr ⟨_, mi, first, x, hx, by rw [hleft]; exact h2⟩
          have hnow : d1.c.pause = ⟨now.sec, d.c.pause.usec⟩ := by
            rw [hc1]
            simp only [if_neg hnot, Nat.add_zero]
          obtain ⟨N, hN⟩ := C33 hp hf (.inr ⟨hmem, up⟩)
          refine ⟨N, fun h d' n ht hle => hN h d' n (fun k mk => ?_) hle⟩
          obtain ⟨t', e1, e2⟩ := ht k mk
          refine ⟨t', e1, fun _ => ?_⟩
          rw [tvdiff_us, ← hc1, hnow]
          simp only [TV.us] at *
          omega
        · left
          omega

/-- A record is last sent to everyone at `T`, and is not withdrawn.  Then `mdnsd_sleep` returns a time
that ends after the record has expired at the receivers, although it has not expired yet; and there
is nothing to send before. -/
def Overslept (env : Env) (r : Nat) : Prop :=
  ∃ pre T a mid d x now t d1, Hist env (pre ++ (.send T, a) :: mid) d ∧ Call.shows .an r (.send T, a) = true ∧
    (∀ k ∈ mid, Call.shows .an r k = false) ∧ d.c.recs r = some x ∧ x.rr.ttl ≠ 0 ∧
    Mdns.step env (.sleep now) d = .ok (.time t, d1) ∧ now.sec ≤ T.sec + x.rr.ttl ∧
    T.sec + x.rr.ttl < now.sec + t.sec ∧ ∀ w, d1.q.walk w = []

/-! ### Concrete cases -/

namespace Sample

/-- The decidable part of `Overslept` for record 0: the packet is call `i`. -/
def oversleptB (ops : List Op) (i : Nat) (now : TV) : Bool :=
  (match (trace quiet ops fresh).1[i]?, (trace quiet ops fresh).2.c.recs 0, sleepAt now (trace quiet ops fresh).2 with
  | some (.send T, a), some x, some (t, d1) => Call.shows .an 0 (.send T, a) && decide (x.rr.ttl ≠ 0) &&
      decide (now.sec ≤ T.sec + x.rr.ttl) && decide (T.sec + x.rr.ttl < now.sec + t.sec) &&
      decide (d1.q.walk .now = []) && decide (d1.q.walk .pause = []) && decide (d1.q.walk .probing = []) &&
      decide (d1.q.walk .publish = [])
  | _, _, _ => false) && ((trace quiet ops fresh).1.drop (i + 1)).all fun k => !Call.shows .an 0 k

theorem overslept_of {ops : List Op} {i : Nat} {now : TV} (hs : safeRunB quiet fresh ops = true)
    (hb : oversleptB ops i now = true) : Overslept quiet 0 := by
  have hh := hist_of hs
  unfold oversleptB at hb
  rw [Bool.and_eq_true] at hb
  obtain ⟨hb, hm⟩ := hb
  split at hb
  · rename_i T a x t d1 hi hx he
    simp only [Bool.and_eq_true, decide_eq_true_eq] at hb
    obtain ⟨⟨⟨⟨⟨⟨⟨h1, h2⟩, h3⟩, h4⟩, h5⟩, h6⟩, h7⟩, h8⟩ := hb
    obtain ⟨hlt, hi⟩ := List.getElem?_eq_some_iff.mp hi
    have e := List.take_append_drop i (trace quiet ops fresh).1
    rw [List.drop_eq_getElem_cons hlt, hi] at e
    rw [← e] at hh
    refine ⟨_, T, a, _, _, x, now, t, d1, hh, h1, fun k mk => ?_, hx, h2, sleep_of he, h3, h4, fun w => ?_⟩
    · have := List.all_eq_true.mp hm k mk
      simpa using this
    · cases w <;> assumption
  · cases hb

/-- A record with a lifetime of 20 seconds that was announced. -/
def brief (ops : List Op) : List Op := [.shared (nm 97) 16 20, .setRaw 0 [1, 2]] ++ ops ++ every 100 4

/-- C42: the hypotheses hold for the record: it is sent last at second 106.  At second 110 the time to
sleep ends at second 124; at second 124 the record is queued. -/
example : ∃ pre a mid, Quieted quiet (pre ++ (.send (at_ 106), a) :: mid) (at_ 110) (trace quiet (brief []) fresh).2 ∧
    (trace quiet (brief []) fresh).2.c.shutdown = false ∧ Call.shows .an 0 (.send (at_ 106), a) = true ∧
    (∀ k ∈ mid, (Section.an, 0) ∉ k.2.tags) ∧ (∃ x, (trace quiet (brief []) fresh).2.c.recs 0 = some x ∧ x.rr.ttl = 20 ∧
      ((trace quiet (brief []) fresh).2.c.published (bucket x.rr.name sprime)).head? = some 0) ∧
    (trace quiet (brief []) fresh).2.rests ∧
    (sleepAt (at_ 110) (trace quiet (brief []) fresh).2).any (fun p => p.1 = ⟨14, 0⟩ && p.2.q.walk .pause = []) = true ∧
    (sleepAt (at_ 124) (trace quiet (brief []) fresh).2).any (fun p => p.1 = ⟨0, 0⟩ && p.2.q.walk .pause = [0]) = true := by
  have k : Quieted quiet (trace quiet (brief []) fresh).1 (at_ 110) (trace quiet (brief []) fresh).2 :=
    ready_of (by decide +kernel) (by decide) (by decide +kernel) (by decide +kernel) (by decide +kernel)
  obtain ⟨k5, h5, hb⟩ := any_some (o := (trace quiet (brief []) fresh).1[5]?)
    (f := fun k => Call.shows .an 0 k && match k.1 with | .send t => decide (t = at_ 106) | _ => false) (by decide +kernel)
  obtain ⟨hlt, hi⟩ := List.getElem?_eq_some_iff.mp h5
  have e := List.take_append_drop 5 (trace quiet (brief []) fresh).1
  rw [List.drop_eq_getElem_cons hlt, hi] at e
  rw [Bool.and_eq_true] at hb
  obtain ⟨o, a⟩ := k5
  obtain ⟨hb1, hb2⟩ := hb
  dsimp only at hb2
  split at hb2
  · rename_i t
    obtain rfl : t = at_ 106 := of_decide_eq_true hb2
    rw [← e] at k
    refine ⟨_, a, _, k, by decide +kernel, hb1, by decide +kernel, ?_, ⟨by decide +kernel, fun w => ?_, by decide +kernel⟩,
      by decide +kernel, by decide +kernel⟩
    · obtain ⟨x, hx, hb⟩ := any_some (o := (trace quiet (brief []) fresh).2.c.recs 0)
        (f := fun x => decide (x.rr.ttl = 20 ∧
          ((trace quiet (brief []) fresh).2.c.published (bucket x.rr.name sprime)).head? = some 0)) (by decide +kernel)
      exact ⟨x, hx, of_decide_eq_true hb⟩
    · cases w <;> decide +kernel
  · cases hb2

end Sample

open Sample in
/-- C42: two records whose names have the same hash; the first one is never sent again
(`libmdnsd/mdnsd.c:1510-1526` looks at the first record of each bucket). -/
theorem C42_bucket_counterexample : Overslept quiet 0 :=
  overslept_of (ops := brief [.shared [109, 97, 46] 16 100, .setRaw 1 [1, 2]]) (i := 7) (now := at_ 107)
    (by decide +kernel) (by decide +kernel)

open Sample in
/-- C42: while there are questions to ask, records are not sent again. -/
theorem C42_query_counterexample : Overslept quiet 0 :=
  overslept_of (ops := brief [] ++ [.query (nm 97) 12 (some 5), .recv (at_ 107) (ptrMsg 100) other, .send (at_ 108),
    .send (at_ 109), .send (at_ 111), .send (at_ 114), .send (at_ 115)]) (i := 5) (now := at_ 116)
    (by decide +kernel) (by decide +kernel)

open Sample in
/-- C42: one host asks for a record it already has and that is about to expire at the others.  The
answer to this host counts like one for everyone. -/
theorem C42_unicast_counterexample : Overslept quiet 0 :=
  overslept_of (ops := brief [] ++ [.recv (at_ 122) { ask (nm 97) 16 with an := [⟨nm 97, 16, 1, 20, [1, 2], .none⟩] } lone,
    .send (at_ 122)]) (i := 5) (now := at_ 123) (by decide +kernel) (by decide +kernel)

end Mdns
