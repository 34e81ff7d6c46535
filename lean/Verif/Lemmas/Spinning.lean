import Verif.Lemmas.Draining
import Verif.Lemmas.Sleeping
import Verif.Lemmas.Limits

/-!
# After a step nothing is due

What `mdnsd_out` leaves when it has nothing to send.
-/

namespace Mdns

/-- No query that was asked three times is due. -/
def NoThird (c : Core) : Prop := ∀ q x, c.qs q = some x → x.nexttry ≠ 0 → x.nexttry ≤ c.now.sec → x.tries ≠ 3

/-- No probe is due, and no query is given up. -/
structure TimersSet (c : Core) (l : Lists) : Prop where
  probe : l.q .probing ≠ [] → c.now.us < c.probe.us
  quest : c.checkqlist = 0 ∨ c.now.sec < c.checkqlist ∨ NoThird c

/-- Nothing is due. -/
structure AtRest (c : Core) (l : Lists) : Prop where
  uans : c.uanswers = []
  now : l.q .now = []
  pause : l.q .pause ≠ [] → c.now.us < c.pause.us
  probe : l.q .probing ≠ [] → c.now.us < c.probe.us
  publish : l.q .publish ≠ [] → c.now.us < c.publish.us ∨ l.q .probing ≠ []
  quest : c.checkqlist ≠ 0 → c.now.sec < c.checkqlist

/-! ### Queries -/

theorem upd_now {env : Env} {suf : List Nat} {s t : QSt} (n : Upd env suf s t) : t.c.now = s.c.now :=
  (congrArg Core.now n.rest : t.c.rest.now = s.c.rest.now)

theorem Upd.third {env : Env} {suf : List Nat} {s t : QSt} (n : Upd env suf s t) {q : Nat} {x : Query}
    (hx : t.c.qs q = some x) (h0 : x.nexttry ≠ 0) (hd : x.nexttry ≤ s.c.now.sec) (h3 : x.tries = 3) :
    q ∉ suf ∧ ∃ cb, s.c.qs q = some { x with cb := cb } := by
  induction n with
  | done => exact ⟨by simp, x.cb, hx⟩
  | @idle p suf s t y _ hy hi n ih =>
    obtain ⟨h1, cb, h2⟩ := ih hx hd
    refine ⟨fun m => ?_, cb, h2⟩
    rcases List.mem_cons.mp m with rfl | m
    · rw [hy] at h2
      cases h2
      have hi : x.nexttry = 0 ∨ x.nexttry > s.c.now.sec := hi
      omega
    · exact h1 m
  | @again p suf s t y c1 evs cb _ _ _ _ _ hc _ _ n ih =>
    have hn : c1.now = s.c.now := hc.now
    obtain ⟨h1, cb', h2⟩ := ih hx (by show x.nexttry ≤ c1.now.sec; rw [hn]; exact hd)
    have h2 : upd c1.qs p _ q = _ := h2
    by_cases e : q = p
    · subst e
      rw [upd_same] at h2
      have h2 := congrArg Query.tries (Option.some.inj h2)
      have h2 : 0 = x.tries := h2
      omega
    · rw [upd_other _ _ _ _ e] at h2
      refine ⟨fun m => ?_, ?_⟩
      · rcases List.mem_cons.mp m with m | m
        · exact e m
        · exact h1 m
      · rcases hc.new q _ h2 with ⟨cb, h⟩ | ⟨_, _, _, h, _⟩
        · exact ⟨cb, h⟩
        · have h : x.tries = 0 := h
          omega
  | @ask p suf s t y _ _ hi _ n ih =>
    obtain ⟨h1, cb', h2⟩ := ih hx hd
    have h2 : upd s.c.qs p _ q = _ := h2
    by_cases e : q = p
    · subst e
      rw [upd_same] at h2
      have h2 := congrArg Query.nexttry (Option.some.inj h2)
      have h2 : s.c.now.sec + (y.tries + 1) = x.nexttry := h2
      omega
    · rw [upd_other _ _ _ _ e] at h2
      refine ⟨fun m => ?_, cb', h2⟩
      rcases List.mem_cons.mp m with m | m
      · exact e m
      · exact h1 m

theorem Upd.later {env : Env} {suf : List Nat} {s t : QSt} (n : Upd env suf s t) (hn : NoThird s.c)
    (hb : s.best = 0 ∨ s.c.now.sec < s.best) : t.best = 0 ∨ s.c.now.sec < t.best := by
  induction n with
  | done => exact hb
  | idle _ _ _ _ ih => exact ih hn hb
  | @again p suf s t y c1 evs cb _ hx hi h3 _ _ _ _ _ _ =>
    have h1 := hn p y hx (by omega) (by omega)
    exact absurd h3 h1
  | @ask p suf s t y _ _ _ _ n ih =>
    refine ih ?_ ?_
    · intro q x hx h0 hd
      have hx : upd s.c.qs p _ q = some x := hx
      by_cases e : q = p
      · subst e
        rw [upd_same] at hx
        cases hx
        have hd : s.c.now.sec + (y.tries + 1) ≤ s.c.now.sec := hd
        exact absurd hd (by omega)
      · rw [upd_other _ _ _ _ e] at hx
        exact hn q x hx h0 hd
    · show (if s.best = 0 ∨ s.c.now.sec + (y.tries + 1) < s.best then s.c.now.sec + (y.tries + 1) else s.best) = 0 ∨
        s.c.now.sec < (if s.best = 0 ∨ s.c.now.sec + (y.tries + 1) < s.best then s.c.now.sec + (y.tries + 1) else s.best)
      by_cases hh : s.best = 0 ∨ s.c.now.sec + (y.tries + 1) < s.best
      · rw [if_pos hh]; right; omega
      · rw [if_neg hh]; exact hb

theorem nextBest_later {c : Core} : ∀ (xs : List Query) (best : Nat),
    (∀ x ∈ xs, x.nexttry ≠ 0 → x.nexttry ≤ c.now.sec → x.tries < 3) → (best = 0 ∨ c.now.sec < best) →
    (xs.foldl c.nextBest best = 0 ∨ c.now.sec < xs.foldl c.nextBest best)
  | [], _, _, hb => hb
  | x :: xs, best, h, hb => by
    refine nextBest_later xs _ (fun y m => h y (by simp [m])) ?_
    have hx := h x (by simp)
    unfold Core.nextBest
    by_cases h1 : c.due x
    · rw [if_pos h1]; exact hb
    · rw [if_neg h1]
      by_cases h2 : x.nexttry > 0 ∧ (best = 0 ∨ x.nexttry < best)
      · rw [if_pos h2]
        right
        refine Nat.lt_of_not_le fun h3 => h1 ⟨h2.1, h3, hx (by omega) h3⟩
      · rw [if_neg h2]; exact hb

theorem QuestOpt.paced {env : Env} {m m' : Out} {c c' : Core} {ret : Nat} (n : QuestOpt env m c ret m' c') :
    c'.checkqlist = 0 ∨ c'.now.sec < c'.checkqlist ∨ NoThird c' := by
  cases n with
  | no _ hn => omega
  | @yes t h1 h2 n =>
    right; right
    intro q x hx h0 hd h3
    have hnow : t.c.now = c.now := upd_now n
    have hx : t.c.qs q = some x := hx
    have hd : x.nexttry ≤ t.c.now.sec := hd
    rw [hnow] at hd
    obtain ⟨k1, cb, k2⟩ := n.third hx h0 hd h3
    exact k1 (n.start.qlive q _ k2).2

theorem QuestOpt.later {env : Env} {m m' : Out} {c c' : Core} {ret : Nat} (n : QuestOpt env m c ret m' c') (ht : Tries c)
    (h : c.checkqlist = 0 ∨ c.now.sec < c.checkqlist ∨ NoThird c) : c'.checkqlist ≠ 0 → c'.now.sec < c'.checkqlist := by
  cases n with
  | no _ hn => omega
  | @yes t h1 h2 n =>
    intro hc
    have hc : t.best ≠ 0 := hc
    have hnow : t.c.now = c.now := upd_now n
    show t.c.now.sec < t.best
    rw [hnow]
    have h3 : NoThird c := by
      rcases h with h | h | h
      · exact absurd h h1
      · omega
      · exact h
    refine (n.later h3 (nextBest_later _ _ ?_ (.inl rfl))).resolve_left hc
    intro x mx k1 k2
    obtain ⟨q, mq, hq⟩ := List.mem_filterMap.mp mx
    have := ht q x hq
    have := h3 q x hq k1 k2
    omega

/-! ### Records -/

theorem ROut.still {w : W} {s t : OSt} (n : ROut w s t) (hr : t.ret = s.ret) (hd : s.c.disco = false)
    (hf : ∀ r x, s.c.recs r = some x → s.m.len + rrLen x.rr < s.c.frame) : t = s ∧ s.l.q w = [] := by
  obtain ⟨p, q, f⟩ := n.flow
  have h1 := f.ret
  have h2 : q = [] := List.eq_nil_of_length_eq_zero (by omega)
  have h3 := f.all hd
  rw [h2] at h3
  have h4 := f.idle h3.symm
  refine ⟨h4, ?_⟩
  rcases f.stop with h | ⟨r, rest, x, _, hx, hn⟩
  · rw [h4] at h; exact h
  · rw [h4] at hx hn
    exact absurd (hf r x hx) hn

theorem PubOpt.still {s t : OSt} (n : PubOpt s t) (hr : t.ret = s.ret)
    (hf : ∀ r x, s.c.recs r = some x → s.m.len + rrLen x.rr < s.c.frame) :
    t = s ∧ (s.l.q .publish ≠ [] → s.c.now.us < s.c.publish.us ∨ s.l.q .probing ≠ []) := by
  cases n with
  | no _ hn =>
    refine ⟨rfl, fun h => ?_⟩
    by_cases hp : s.l.q .probing = []
    · left
      refine Int.lt_of_not_ge fun h1 => hn ⟨hp, h, ?_⟩
      rw [tvdiff_us]
      omega
    · exact .inr hp
  | @yes t h1 h2 h3 n =>
    exfalso
    have hr : t.ret = s.ret := hr
    obtain ⟨sent, rest, kept, f⟩ := n.flow
    have k1 := f.ret
    have k2 : sent = [] := List.eq_nil_of_length_eq_zero (by omega)
    have k3 := f.idle k2
    have k4 := f.suf
    rw [k2] at k4
    rcases f.stop with h | ⟨r, rs, x, _, hx, hn⟩
    · rw [h] at k4
      exact h2 k4
    · rw [k3] at hx hn
      exact hn (hf r x hx)

theorem PauseOpt.still {s t : OSt} (n : PauseOpt s t) (hr : t.ret = s.ret) (hd : s.c.disco = false)
    (hf : ∀ r x, s.c.recs r = some x → s.m.len + rrLen x.rr < s.c.frame) :
    t = s ∧ (s.l.q .pause ≠ [] → s.c.now.us < s.c.pause.us) := by
  cases n with
  | no _ hn =>
    refine ⟨rfl, fun h => ?_⟩
    refine Int.lt_of_not_ge fun h1 => hn ⟨h, ?_⟩
    rw [tvdiff_us]
    omega
  | yes h1 _ n => exact absurd (n.still hr hd hf).2 h1

theorem ProbeB.ret {pre suf : List Nat} {s t : OSt} (n : ProbeB pre suf s t) : t.ret = s.ret + suf.length ∧ t.l = s.l := by
  induction n with
  | done => exact ⟨rfl, rfl⟩
  | propose _ _ _ _ _ ih =>
    refine ⟨?_, ih.2⟩
    rw [ih.1]
    simp only [List.length_cons]
    omega

/-- No probe is sent: no probe is left, or none is due. -/
theorem ProbeOpt.still {s t : OSt} (n : ProbeOpt s t) (hr : t.ret = s.ret) :
    (t = s ∧ (s.l.q .probing ≠ [] → s.c.now.us < s.c.probe.us)) ∨
      (t.l.q .probing = [] ∧ s.l.q .probing ≠ [] ∧ ¬ s.c.now.us < s.c.probe.us) := by
  cases n with
  | no _ hn =>
    left
    refine ⟨rfl, fun h => ?_⟩
    refine Int.lt_of_not_ge fun h1 => hn ⟨h, ?_⟩
    rw [tvdiff_us]
    omega
  | @yes u t h1 h2 n n' =>
    right
    have hr : t.ret = s.ret := hr
    obtain ⟨k1, k2⟩ := n'.ret
    have k3 := n.len.2
    refine ⟨?_, h1, ?_⟩
    · show t.l.q .probing = []
      rw [k2]
      exact List.eq_nil_of_length_eq_zero (by omega)
    · rw [tvdiff_us] at h2
      omega

/-! ### Packets -/

theorem fits_start {c : Core} (hf : FitsAlone c) (l : Lists) :
    ∀ r x, (⟨c, l, {}, [], 0⟩ : OSt).c.recs r = some x →
      (⟨c, l, {}, [], 0⟩ : OSt).m.len + rrLen x.rr < (⟨c, l, {}, [], 0⟩ : OSt).c.frame := hf

theorem NoThird.congr {c c' : Core} (h : NoThird c) (e1 : c'.qs = c.qs) (e2 : c'.now = c.now) : NoThird c' := by
  intro q x
  rw [e1, e2]
  exact h q x

theorem quest_recfree {c c' : Core} (e : c'.recfree = c.recfree)
    (h : c.checkqlist = 0 ∨ c.now.sec < c.checkqlist ∨ NoThird c) :
    c'.checkqlist = 0 ∨ c'.now.sec < c'.checkqlist ∨ NoThird c' := by
  have e1 : c'.checkqlist = c.checkqlist := (congrArg Core.checkqlist e : c'.recfree.checkqlist = c.recfree.checkqlist)
  have e2 : c'.now = c.now := (congrArg Core.now e : c'.recfree.now = c.recfree.now)
  have e3 : c'.qs = c.qs := (congrArg Core.qs e : c'.recfree.qs = c.recfree.qs)
  rw [e1, e2]
  exact h.imp_right (Or.imp_right fun h => h.congr e3 e2)

/-- No sweep is due: its time stays. -/
theorem OutMsg.sweep {env : Env} {c : Core} {l : Lists} {ret : Nat} {m : Out} {to : Addr} {c' : Core} {l' : Lists}
    (n : OutMsg env c l ret m to c' l') (he : c.now.sec ≤ c.expireall) : c'.expireall = c.expireall := by
  have rf : ∀ {a b : Core}, a.recfree = b.recfree → a.expireall = b.expireall ∧ a.now = b.now := fun {a b} e =>
    ⟨(congrArg Core.expireall e : a.recfree.expireall = b.recfree.expireall), (congrArg Core.now e : a.recfree.now = b.recfree.now)⟩
  cases n with
  | unicast => rfl
  | shutdown _ n1 n2 => exact (rf (n2.recfree.trans n1.recfree)).1
  | normal _ n1 n2 _ n3 =>
    have e2 := n2.recfree.trans n1.recfree
    cases n3 with
    | answers np => exact (rf (np.recfree.trans e2)).1
    | probes np _ _ nb => exact (rf (nb.recfree.trans (np.recfree.trans e2))).1
    | @questions s3 s4 _ _ _ _ c5 _ np _ _ nb _ nq ng =>
      obtain ⟨k1, k2⟩ := rf (nb.recfree.trans (np.recfree.trans e2))
      have en : c5.now = s4.c.now := (congrArg Core.now nq.rest : c5.rest.now = s4.c.rest.now)
      have ee : c5.expireall = s4.c.expireall := (congrArg Core.expireall nq.rest : c5.rest.expireall = s4.c.rest.expireall)
      cases ng with
      | no => exact ee.trans k1
      | yes _ hn =>
        rw [en, ee, k1, k2] at hn
        exact absurd hn (Nat.not_lt.mpr he)

/-- The pace is kept, and found by a call that sends nothing. -/
theorem OutMsg.steady {env : Env} {c : Core} {l : Lists} {ret : Nat} {m : Out} {to : Addr} {c' : Core} {l' : Lists}
    (n : OutMsg env c l ret m to c' l') (up : c.shutdown = false) (he : c.now.sec ≤ c.expireall)
    (h : ret = 0 ∨ TimersSet c l) : TimersSet c' l' := by
  cases n with
  | unicast => 
    have h := h.resolve_left (by simp)
    exact ⟨h.probe, h.quest⟩
  | shutdown _ _ _ hs => rw [up] at hs; cases hs
  | @normal s1 s2 _ _ _ _ hu n1 n2 _ n3 =>
    have e2 : s2.c.recfree = c.recfree := n2.recfree.trans n1.recfree
    have p2 : s2.l.q .probing = l.q .probing := n2.probing.trans (n1.probing (by decide))
    have t2 : s2.c.probe = c.probe := (n1.slow.trans n2.slow).probe
    cases n3 with
    | @answers s3 _ _ np na hr nf =>
      have h := h.resolve_left hr
      have e3 : s3.c.recfree = c.recfree := np.recfree.trans e2
      have en : s3.c.now = c.now := (congrArg Core.now e3 : s3.c.recfree.now = c.recfree.now)
      refine ⟨fun hp => ?_, quest_recfree e3 h.quest⟩
      rw [en, np.slow.probe.trans t2]
      exact h.probe (by rw [← p2, ← np.probing]; exact hp)
    | @probes s3 s4 m0 seen np na hr nb hr2 =>
      have hst : TimersSet c l := h.resolve_left hr2
      exfalso
      have e3 : s3.c.recfree = c.recfree := np.recfree.trans e2
      have en : s3.c.now = c.now := (congrArg Core.now e3 : s3.c.recfree.now = c.recfree.now)
      cases nb with
      | no => exact hr2 hr
      | yes h1 h2 =>
        have h1 : s3.l.q .probing ≠ [] := h1
        have h2 : tvdiff s3.c.now s3.c.probe ≤ 0 := h2
        rw [en, np.slow.probe.trans t2, tvdiff_us] at h2
        have := hst.probe (by rw [← p2, ← np.probing]; exact h1)
        omega
    | @questions s3 s4 m0 seen _ _ c5 c6 np na hr nb hr2 nq ng =>
      have e3 : s3.c.recfree = c.recfree := np.recfree.trans e2
      have e4 : s4.c.recfree = c.recfree := nb.recfree.trans e3
      have en3 : s3.c.now = c.now := (congrArg Core.now e3 : s3.c.recfree.now = c.recfree.now)
      have en4 : s4.c.now = c.now := (congrArg Core.now e4 : s4.c.recfree.now = c.recfree.now)
      have ee4 : s4.c.expireall = c.expireall := (congrArg Core.expireall e4 : s4.c.recfree.expireall = c.recfree.expireall)
      have en : c5.now = s4.c.now := (congrArg Core.now nq.rest : c5.rest.now = s4.c.rest.now)
      have ee : c5.expireall = s4.c.expireall := (congrArg Core.expireall nq.rest : c5.rest.expireall = s4.c.rest.expireall)
      have ep : c5.probe = s4.c.probe := (congrArg Core.probe nq.rest : c5.rest.probe = s4.c.rest.probe)
      cases ng with
      | yes _ hn => rw [en, ee, en4, ee4] at hn; omega
      | no =>
        refine ⟨fun hp => ?_, nq.paced⟩
        rcases nb.still (hr2.trans hr.symm) with ⟨e, k⟩ | ⟨e, _⟩
        · have k' : s3.l.q .probing ≠ [] → s3.c.now.us < s3.c.probe.us := k
          subst e
          rw [en, ep]
          exact k' hp
        · exact absurd e hp

/-- After a call that sends nothing, nothing is due. -/
theorem OutMsg.rests {env : Env} {c : Core} {l : Lists} {m : Out} {to : Addr} {c' : Core} {l' : Lists}
    (n : OutMsg env c l 0 m to c' l') (up : c.shutdown = false) (hd : c.disco = false) (hf : FitsAlone c)
    (he : c.now.sec ≤ c.expireall) (ht : Tries c) (h : TimersSet c l) : AtRest c' l' := by
  generalize hz : 0 = ret at n
  cases n with
  | unicast => cases hz
  | shutdown _ _ _ hs => rw [up] at hs; cases hs
  | @normal s1 s2 _ _ _ _ hu n1 n2 _ n3 =>
    cases n3 with
    | answers np na hr nf => exact absurd hz.symm hr
    | probes np na hr nb hr2 => exact absurd hz.symm hr2
    | @questions s3 s4 m0 seen _ _ c5 c6 np na hr nb hr2 nq ng =>
      obtain ⟨_, _, f1⟩ := n1.flow
      obtain ⟨_, _, _, g2, _⟩ := n2.flow
      have r1 : s1.ret = 0 ∧ s2.ret = 0 := by
        have a1 := f1.ret
        have a2 := n2.answering (n1.answering (.start c l))
        have a3 := (np.answering a2).ret
        have : s2.ret ≤ s3.ret := by
          cases np with
          | no => exact Nat.le_refl _
          | yes _ _ np => obtain ⟨_, _, f⟩ := np.flow; have := f.ret; omega
        have : s1.ret ≤ s2.ret := by
          cases n2 with
          | no => exact Nat.le_refl _
          | @yes t _ _ _ n2 => obtain ⟨_, _, _, f⟩ := n2.flow; have := f.ret; show s1.ret ≤ t.ret; omega
        omega
      obtain ⟨rfl, k1⟩ := n1.still r1.1 hd (fits_start hf l)
      obtain ⟨rfl, k2⟩ := n2.still r1.2 (fits_start hf l)
      obtain ⟨rfl, k3⟩ := np.still hr hd (fits_start hf l)
      rcases nb.still (hr2.trans hr.symm) with ⟨rfl, k4⟩ | ⟨_, k5, k6⟩
      · have q0 := nq.later ht h.quest
        have en : c5.now = c.now := (congrArg Core.now nq.rest : c5.rest.now = c.rest.now)
        have ee : c5.expireall = c.expireall := (congrArg Core.expireall nq.rest : c5.rest.expireall = c.rest.expireall)
        have e1 : c5.uanswers = c.uanswers := (congrArg Core.uanswers nq.rest : c5.rest.uanswers = c.rest.uanswers)
        have e2 : c5.pause = c.pause := (congrArg Core.pause nq.rest : c5.rest.pause = c.rest.pause)
        have e3 : c5.probe = c.probe := (congrArg Core.probe nq.rest : c5.rest.probe = c.rest.probe)
        have e4 : c5.publish = c.publish := (congrArg Core.publish nq.rest : c5.rest.publish = c.rest.publish)
        cases ng with
        | yes _ hn => rw [en, ee] at hn; omega
        | no => exact ⟨e1.trans hu, k1, by rw [en, e2]; exact k3, by rw [en, e3]; exact k4, by rw [en, e4]; exact k2, q0⟩
      · exact absurd (h.probe k5) k6

end Mdns
