import Verif.Lemmas.Spinning
import Verif.Props.Prompt
import Verif.Props.Sweep

/-!
# C103: the daemon does not spin

A program that calls `mdnsd_step` whenever the time to wait is over does not get a time of zero
again and again while the clock stands still.
-/

namespace Mdns

/-! ### The loop over `mdnsd_out` at one time -/

theorem Core.with_now {c : Core} {now : TV} (h : c.now = now) : { c with now := now } = c := by
  subst h
  rfl

/-- The loop ends with a call that sends nothing; before that it keeps what packets keep. -/
theorem processOut_last {env : Env} (hk : env.KeepOnExpiry) {now : TV} {clock : Nat → TV} (hc : ∀ k, clock k = now)
    {accepted : Nat → Bool} (P : Core → Lists → Prop)
    (step : ∀ (d d' : D Ptrs) ret m to, Reach env d → P { d.c with now := now } d.lists →
      OutMsg env { d.c with now := now } d.lists ret m to d'.c d'.lists → ret ≠ 0 → P d'.c d'.lists) :
    ∀ (fuel k : Nat) {d d' : D Ptrs} {ms : List (Out × Addr)}, Reach env d → P { d.c with now := now } d.lists →
      processOut env clock accepted fuel k d = .ok ((0, ms), d') →
      ∃ (dl : D Ptrs) (m : Out) (to : Addr), Reach env dl ∧ P { dl.c with now := now } dl.lists ∧
        OutMsg env { dl.c with now := now } dl.lists 0 m to d'.c d'.lists ∧ Reach env d'
  | 0, _, _, _, _, _, _, e => by cases e
  | fuel + 1, k, d, d', ms, h, hp, e => by
    obtain ⟨ret, m, to, d1, e1, n1, o1⟩ := send_call hk h (clock k)
    rw [hc k] at o1
    unfold processOut at e
    rw [M.bind_ok e1] at e
    simp only at e
    have h1 := n1.reach h
    split at e
    · rename_i hr0
      subst hr0
      cases e
      exact ⟨d, m, to, h, hp, o1, h1⟩
    · rename_i hr0
      split at e
      · cases e2 : processOut env clock accepted fuel (k + 1) d1 with
        | ub => rw [M.bind_ub e2] at e; cases e
        | hang => rw [M.bind_hang e2] at e; cases e
        | ok p =>
          obtain ⟨⟨rc2, ms2⟩, d2⟩ := p
          rw [M.bind_ok e2] at e
          cases e
          have hn : d1.c.now = now := (Core.conf_eq o1.conf).1
          refine processOut_last hk hc P step fuel (k + 1) h1 ?_ e2
          rw [Core.with_now hn]
          exact step d d1 ret m to h hp o1 hr0
      · cases e

/-! ### Quiet steps -/

/-- A step at the time `now` in which nothing is received and that asks for the time to wait. -/
structure StepIo.Still (io : StepIo) (now : TV) : Prop where
  input : io.input = false ∨ (io.datagrams = [] ∧ io.failed = false)
  output : io.output = true
  clock : ∀ k, io.clock k = now
  sleepAt : io.sleepAt = now
  wait : io.wait = true

theorem still_parts {env : Env} {io : StepIo} {now : TV} (q : io.Still now) {fuel : Nat} {d d' : D Ptrs}
    {out : StepOut} (e : mdnsdStep env io fuel d = .ok (out, d')) (hrc : out.rc = 0) :
    ∃ (d1 d2 : D Ptrs) (t : TV), processOut env io.clock io.accepted fuel 0 d = .ok ((0, out.packets), d1) ∧ out.tv = some t ∧
      d' = { d2 with c := { d2.c with disco := false } } ∧
      (Reach env d1 → SleepR now d1.c d1.lists t d2.c d2.lists ∧ Reach env d') := by
  have : stepIn env io d = .ok (0, d) := by
    unfold stepIn
    rcases q.input with h | ⟨h1, h2⟩
    · rw [h]; rfl
    · rw [h1, h2]
      split <;> rfl
  obtain ⟨orc, oms, otv⟩ := out
  have hrc : orc = 0 := hrc
  subst hrc
  obtain ⟨rc1, d0, d1, d2, e1, e2, e3, e4⟩ := mdnsdStep_parts e
  rw [this] at e1
  cases e1
  have e3 : stepWait io 0 d1 = .ok (otv, d2) := e3
  have p2 : processOut env io.clock io.accepted fuel 0 d = .ok ((0, oms), d1) := by
    have e2 : stepOut env io fuel 0 d = .ok ((0, oms), d1) := e2
    unfold stepOut at e2
    rw [if_pos ⟨rfl, q.output⟩] at e2
    exact e2
  unfold stepWait at e3
  rw [if_pos ⟨rfl, q.wait⟩, q.sleepAt] at e3
  cases e5 : Mdns.sleep now d1 with
  | ub => rw [M.bind_ub e5] at e3; cases e3
  | hang => rw [M.bind_hang e5] at e3; cases e3
  | ok p =>
    obtain ⟨t, d3⟩ := p
    rw [M.bind_ok e5] at e3
    cases e3
    refine ⟨d1, d2, t, p2, rfl, e4, fun h1 => ?_⟩
    have e0 : Mdns.step env (.sleep now) d1 = .ok (.time t, d2) := M.bind_ok e5
    have hd := h1.did (o := .sleep now) trivial e0
    refine ⟨?_, ?_⟩
    · generalize d2.c = c', d2.lists = l' at hd
      cases hd with
      | sleep n => exact n
    · have h3 := h1.step (o := .sleep now) trivial e0
      rw [e4]
      exact h3.step (o := .stepEnd) trivial rfl

/-- What is kept by all packets at a time. -/
structure Calm (now : TV) (c : Core) (l : Lists) : Prop where
  up : c.shutdown = false
  sweep : now.sec + 2 < c.expireall
  at_ : c.now = now

theorem Calm.out {now : TV} {env : Env} {c c' : Core} {l l' : Lists} {ret : Nat} {m : Out} {to : Addr} (h : Calm now c l)
    (n : OutMsg env c l ret m to c' l') : Calm now c' l' := by
  have := n.sweep (by rw [h.at_]; have := h.sweep; omega)
  obtain ⟨c1, _, _, c2, _⟩ := Core.conf_eq n.conf
  exact ⟨c2.trans h.up, by rw [this]; exact h.sweep, c1.trans h.at_⟩

theorem SleepR.keeps {now : TV} {c c' : Core} {l l' : Lists} {t : TV} (n : SleepR now c l t c' l') :
    c'.shutdown = c.shutdown ∧ c'.expireall = c.expireall ∧ c'.frame = c.frame ∧ c'.recs = c.recs := by
  cases n <;> exact ⟨rfl, rfl, rfl, rfl⟩

theorem rounded_pos {t : TV} (h : 0 < t.us) : 0 < (rounded t).us := by
  rw [rounded_us]
  exact h

/-- When nothing is due, the time to wait is positive unless records must be sent again. -/
theorem AtRest.sleep {now : TV} {c c' : Core} {l l' : Lists} {t : TV} (r : AtRest c l) (hn : c.now = now)
    (he : now.sec + 2 < c.expireall) (n : SleepR now c l t c' l') : 0 < t.us ∨
      (t = rounded ⟨0, 0⟩ ∧ c.checkqlist = 0 ∧ c.uanswers = [] ∧ (∀ w, l.q w = []) ∧ OnlyPause l' ∧
        (∀ s, s ∈ l'.q .pause ↔ (c.awake now).stale (List.range sprime) s) ∧
        (∃ i ∈ List.range sprime, ∃ r x, (c.published i).head? = some r ∧ c.recs r = some x ∧ (c.awake now).left x ≤ 2) ∧
        c' = { c.awake now with pause := ⟨now.sec, c.pause.usec⟩, sleep := rounded ⟨0, 0⟩ }) := by
  cases n with
  | busy h =>
    rcases h with h | h
    · exact absurd r.uans h
    · exact absurd r.now h
  | pause h h1 =>
    left
    refine rounded_pos ?_
    have := r.pause h1
    rw [hn] at this
    rw [tvdiff_us]
    unfold TV.us at this ⊢
    simp only
    omega
  | probing h h1 h2 =>
    left
    refine rounded_pos ?_
    have := r.probe h2
    rw [hn] at this
    rw [tvdiff_us]
    unfold TV.us at this ⊢
    simp only
    omega
  | publish h h1 h2 h3 =>
    left
    refine rounded_pos ?_
    have := (r.publish h3).resolve_right (fun h => h h2)
    rw [hn] at this
    rw [tvdiff_us]
    unfold TV.us at this ⊢
    simp only
    omega
  | query h h1 h2 h3 h4 =>
    left
    refine rounded_pos ?_
    have := r.quest h4
    rw [hn] at this
    unfold TV.us
    simp only
    omega
  | gc h h1 h2 h3 h4 h5 => omega
  | @idle e _ h h1 h2 h3 h4 h5 i o hp he' hh hex hz =>
    by_cases h2e : e > 2
    · left
      refine rounded_pos ?_
      rw [if_pos h2e]
      unfold TV.us
      simp only
      omega
    · right
      rw [if_neg h2e]
      refine ⟨rfl, h4, h.1, ?_, o, hp, ?_, rfl⟩
      · intro w
        cases w
        · exact h2
        · exact h.2
        · exact h1
        · exact h3
      · rcases hex with hex | ⟨i, mi, r, x, k1, k2, k3⟩
        · omega
        · exact ⟨i, mi, r, x, k1, k2, by rw [← k3]; omega⟩

/-! ### Sending records again -/

/-- Records of the pause queue are being sent, nothing else. -/
structure Renewing (now : TV) (c0 : Core) (l0 : Lists) (c : Core) (l : Lists) : Prop where
  up : c.shutdown = false
  at_ : c.now = now
  sweep : now.sec ≤ c.expireall
  only : OnlyPause l
  uans : c.uanswers = []
  quest : c.checkqlist = 0
  disco : c.disco = false
  pub : c.published = c0.published
  sub : ∀ r ∈ l.q .pause, r ∈ l0.q .pause
  live : ∀ r, (c0.recs r).isSome → (c.recs r).isSome
  recs : ∀ r x, c.recs r = some x → ∃ x0, c0.recs r = some x0 ∧ x.rr = x0.rr ∧
    (x.lastSent = now ∨ (x = x0 ∧ (r ∈ l0.q .pause → r ∈ l.q .pause)))

theorem ROut.renewing {now : TV} {c0 : Core} {l0 : Lists} {s t : OSt} (n : ROut .pause s t)
    (hl : ∀ r x, c0.recs r = some x → x.rr.ttl ≠ 0) (h : Renewing now c0 l0 s.c s.l) : Renewing now c0 l0 t.c t.l := by
  induction n with
  | empty => exact h
  | full => exact h
  | skip _ _ _ _ hd => rw [h.disco] at hd; cases hd.1
  | @send s t r rest x _ hq hx hf hd ht n ih =>
    refine ih ?_
    obtain ⟨q1, q2⟩ := tl_q hq
    refine ⟨h.up, h.at_, h.sweep, fun w hw => (q2 w hw).trans (h.only w hw), h.uans, h.quest, h.disco, h.pub,
      fun r' m => h.sub r' (by rw [hq]; exact List.mem_cons_of_mem _ (by rw [← q1]; exact m)), ?_, ?_⟩
    · intro r' hr'
      show (upd s.c.recs r _ r').isSome
      by_cases e : r' = r
      · rw [e, upd_same]; rfl
      · rw [upd_other _ _ _ _ e]; exact h.live r' hr'
    intro r' y hy
    have hy : upd s.c.recs r (some { x with lastSent := s.c.now, modified := false }) r' = some y := hy
    by_cases e : r' = r
    · subst e
      rw [upd_same] at hy
      cases hy
      obtain ⟨x0, k1, k2, _⟩ := h.recs r' x hx
      exact ⟨x0, k1, k2, .inl h.at_⟩
    · rw [upd_other _ _ _ _ e] at hy
      obtain ⟨x0, k1, k2, k3⟩ := h.recs r' y hy
      refine ⟨x0, k1, k2, k3.imp_right fun k => ⟨k.1, fun m => ?_⟩⟩
      have := k.2 m
      rw [hq] at this
      show r' ∈ (s.l.tl .pause).q .pause
      rw [q1]
      exact (List.mem_cons.mp this).resolve_left e
  | @bye s t r rest x _ hq hx hf hd ht n ih =>
    obtain ⟨x0, k1, k2, _⟩ := h.recs r x hx
    rw [k2] at ht
    exact absurd ht (hl r x0 k1)

theorem OutMsg.renewing {now : TV} {env : Env} {c0 c c' : Core} {l0 l l' : Lists} {ret : Nat} {m : Out} {to : Addr}
    (n : OutMsg env c l ret m to c' l') (hl : ∀ r x, c0.recs r = some x → x.rr.ttl ≠ 0) (h : Renewing now c0 l0 c l) :
    Renewing now c0 l0 c' l' := by
  have k1 : ∀ {s1}, ROut .now ⟨c, l, {}, [], 0⟩ s1 → s1 = ⟨c, l, {}, [], 0⟩ := by
    intro s1 n
    obtain ⟨p, q, f⟩ := n.flow
    have := f.q
    have h0 : (⟨c, l, {}, [], 0⟩ : OSt).l.q .now = [] := h.only .now (by decide)
    rw [h0] at this
    exact f.idle (List.append_eq_nil_iff.mp this.symm).1
  have k2 : ∀ {s2}, PubOpt ⟨c, l, {}, [], 0⟩ s2 → s2 = ⟨c, l, {}, [], 0⟩ := by
    intro s2 n
    cases n with
    | no => rfl
    | yes _ p2 => exact absurd (h.only .publish (by decide)) p2
  cases n with
  | unicast hu => rw [h.uans] at hu; cases hu
  | shutdown _ _ _ hs => rw [h.up] at hs; cases hs
  | @normal s1 s2 _ _ _ _ hu n1 n2 _ n3 =>
    cases k1 n1
    cases k2 n2
    have k3 : ∀ {s3}, PauseOpt ⟨c, l, {}, [], 0⟩ s3 → Renewing now c0 l0 s3.c s3.l := by
      intro s3 n
      cases n with
      | no => exact h
      | yes _ _ n => exact n.renewing hl h
    have k4 : ∀ {s s4 : OSt}, Renewing now c0 l0 s.c s.l → ProbeOpt s s4 → s4 = s := by
      intro s s4 h n
      cases n with
      | no => rfl
      | yes p2 => exact absurd (h.only .probing (by decide)) p2
    cases n3 with
    | answers np na hr nf => exact k3 np
    | @probes s3 s4 m0 seen np na hr nb hr2 =>
      have h3 := k3 np
      have := k4 (s := { s3 with m := { m0 with qr := false, aa := false } }) h3 nb
      subst this
      exact absurd hr hr2
    | @questions s3 s4 m0 seen _ _ c5 c6 np na hr nb hr2 nq ng =>
      have h3 := k3 np
      have := k4 (s := { s3 with m := { m0 with qr := false, aa := false } }) h3 nb
      subst this
      generalize hg : (⟨s3.c, s3.l, { m0 with qr := false, aa := false }, s3.seen, s3.ret⟩ : OSt) = s5 at nq
      cases nq with
      | yes h1 => subst hg; exact absurd h3.quest h1
      | no =>
        subst hg
        cases ng with
        | yes _ hn =>
          have h1 : s3.c.now.sec > s3.c.expireall := hn
          rw [h3.at_] at h1
          have := h3.sweep
          omega
        | no => exact h3

/-! ### Three steps -/

theorem TimersSet.awake {now : TV} {c c' : Core} {l l' : Lists} {t : TV} (h : TimersSet c l) (hn : c.now = now)
    (n : SleepR now c l t c' l') : TimersSet { c' with disco := false, now := now } l' := by
  have key : c'.probe = c.probe ∧ c'.checkqlist = c.checkqlist ∧ c'.qs = c.qs ∧ (l'.q .probing ≠ [] → l.q .probing ≠ []) := by
    cases n with
    | idle _ _ h2 _ _ _ _ o => exact ⟨rfl, rfl, rfl, fun h => absurd (o .probing (by decide)) h⟩
    | _ => exact ⟨rfl, rfl, rfl, id⟩
  obtain ⟨e1, e2, e3, e4⟩ := key
  subst hn
  refine ⟨fun hp => ?_, ?_⟩
  · show c.now.us < c'.probe.us
    rw [e1]
    exact h.probe (e4 hp)
  · show c'.checkqlist = 0 ∨ c.now.sec < c'.checkqlist ∨ _
    rw [e2]
    exact h.quest.imp_right (Or.imp_right fun h => h.congr e3 rfl)

theorem lists_disco {d : D Ptrs} {b : Bool} : ({ d with c := { d.c with disco := b } } : D Ptrs).lists = d.lists := rfl

theorem Calm.next {now : TV} {c c' : Core} {l l' : Lists} {t : TV} (h : Calm now c l) (n : SleepR now c l t c' l') :
    Calm now { c' with disco := false, now := now } l' :=
  ⟨n.keeps.1.trans h.up, by show now.sec + 2 < c'.expireall; rw [n.keeps.2.1]; exact h.sweep, rfl⟩

theorem Kept.then {a b c : Core} {now : TV} (h : Kept a { b with now := now }) (h' : Kept { b with now := now } c) : Kept a c :=
  ⟨h'.1.trans h.1, fun r x hx => by
    obtain ⟨x1, k1, k2, k3⟩ := h'.2 r x hx
    obtain ⟨x0, j1, j2, j3⟩ := h.2 r x1 k1
    exact ⟨x0, j1, k2.trans j2, k3.trans j3⟩⟩

/-- The first step. -/
theorem still_first {env : Env} (hk : env.KeepOnExpiry) {io : StepIo} {now : TV} (q : io.Still now) {fuel : Nat}
    {d d' : D Ptrs} {out : StepOut} (h : Reach env d) (up : d.c.shutdown = false) (he : now.sec + 2 < d.c.expireall)
    (e : mdnsdStep env io fuel d = .ok (out, d')) (hrc : out.rc = 0) :
    Reach env d' ∧ Calm now { d'.c with now := now } d'.lists ∧ TimersSet { d'.c with now := now } d'.lists ∧ d'.c.disco = false := by
  obtain ⟨d1, d2, t, e1, _, e2, g⟩ := still_parts q e hrc
  obtain ⟨dl, m, to, hl, cl, o, h1⟩ := processOut_last hk q.clock (Calm now) (fun _ _ _ _ _ _ p o _ => p.out o) fuel 0 h
    ⟨up, he, rfl⟩ e1
  obtain ⟨n, h'⟩ := g h1
  have c1 := cl.out o
  have s1 := o.steady cl.up (by have := cl.sweep; rw [cl.at_]; omega) (.inl rfl)
  subst e2
  exact ⟨h', c1.next (c' := d2.c) (l' := d2.lists) n, s1.awake (c' := d2.c) (l' := d2.lists) c1.at_ n, rfl⟩

/-- What the later steps start with. -/
structure Unhurried (now : TV) (c : Core) (l : Lists) : Prop where
  calm : Calm now c l
  steady : TimersSet c l
  disco : c.disco = false
  fits : FitsAlone c

theorem Unhurried.out {now : TV} {env : Env} {c c' : Core} {l l' : Lists} {ret : Nat} {m : Out} {to : Addr} (h : Unhurried now c l)
    (n : OutMsg env c l ret m to c' l') : Unhurried now c' l' := by
  obtain ⟨_, c1, _, _, c2⟩ := Core.conf_eq n.conf
  exact ⟨h.calm.out n, n.steady h.calm.up (by have := h.calm.sweep; rw [h.calm.at_]; omega) (.inr h.steady), c2.trans h.disco,
    n.kept.fits c1 h.fits⟩

/-- A later step. -/
theorem still_later {env : Env} (hk : env.KeepOnExpiry) {io : StepIo} {now : TV} (q : io.Still now) {fuel : Nat}
    {d d' : D Ptrs} {out : StepOut} (h : Reach env d) (hr : Unhurried now { d.c with now := now } d.lists)
    (e : mdnsdStep env io fuel d = .ok (out, d')) (hrc : out.rc = 0) :
    ∃ (d1 d2 : D Ptrs) (t : TV), processOut env io.clock io.accepted fuel 0 d = .ok ((0, out.packets), d1) ∧ out.tv = some t ∧
      d' = { d2 with c := { d2.c with disco := false } } ∧ SleepR now d1.c d1.lists t d2.c d2.lists ∧ Reach env d' ∧
      AtRest d1.c d1.lists ∧ Unhurried now d1.c d1.lists ∧ Kept d.c d1.c := by
  obtain ⟨d1, d2, t, e1, e3, e2, g⟩ := still_parts q e hrc
  obtain ⟨dl, m, to, hl, ⟨rl, kl⟩, o, h1⟩ := processOut_last hk q.clock (fun c l => Unhurried now c l ∧ Kept d.c c)
    (fun _ _ _ _ _ _ p o _ => ⟨p.1.out o, p.2.then o.kept⟩) fuel 0 h ⟨hr, .refl _⟩ e1
  obtain ⟨n, h'⟩ := g h1
  exact ⟨d1, d2, t, e1, e3, e2, n, h', o.rests rl.calm.up rl.disco rl.fits (by have := rl.calm.sweep; rw [rl.calm.at_]; omega)
    (fun q x hx => hl.tries q x hx) rl.steady, rl.out o, kl.then o.kept⟩

/-- C103 (partial): of three steps at the same time, in which nothing is received and the socket takes
all packets, one gives a time to wait that is not zero; so the daemon does not spin.

Assumed are records that fit in a packet alone and whose lifetime is more than two seconds, that the
next sweep of the cache is more than two seconds away, that the daemon is not shutting down, and
callbacks that do not end a query when a record expires (C28). -/
theorem C103_waits_partial {env : Env} (hk : env.KeepOnExpiry) {d d1 d2 d3 : D Ptrs} (h : Reach env d)
    (up : d.c.shutdown = false) {now : TV} (he : now.sec + 2 < d.c.expireall) {io1 io2 io3 : StepIo} (q1 : io1.Still now)
    (q2 : io2.Still now) (q3 : io3.Still now) {f1 f2 f3 : Nat} {o1 o2 o3 : StepOut}
    (e1 : mdnsdStep env io1 f1 d = .ok (o1, d1)) (e2 : mdnsdStep env io2 f2 d1 = .ok (o2, d2))
    (e3 : mdnsdStep env io3 f3 d2 = .ok (o3, d3)) (r1 : o1.rc = 0) (r2 : o2.rc = 0) (r3 : o3.rc = 0)
    (fits : FitsAlone d1.c) (lasting : ∀ r x, d1.c.recs r = some x → 2 < x.rr.ttl) :
    ∃ o ∈ [o1, o2, o3], ∃ t, o.tv = some t ∧ 0 < t.us := by
  obtain ⟨h1, c1, s1, k1⟩ := still_first hk q1 h up he e1 r1
  obtain ⟨da, db, t2, _, v2, w2, n2, h2, a2, y2, kp2⟩ := still_later hk q2 h1 ⟨c1, s1, k1, fits⟩ e2 r2
  rcases a2.sleep y2.calm.at_ y2.calm.sweep n2 with z | ⟨z1, z2, z3, z4, z5, z6, _, z7⟩
  · exact ⟨o2, by simp, t2, v2, z⟩
  have y3 : Unhurried now { d2.c with now := now } d2.lists := by
    subst w2
    exact ⟨y2.calm.next (c' := db.c) (l' := db.lists) n2, y2.steady.awake (c' := db.c) (l' := db.lists) y2.calm.at_ n2, rfl, fun r x hx => by
      have hx : db.c.recs r = some x := hx
      show _ < db.c.frame
      rw [n2.keeps.2.2.1]
      rw [n2.keeps.2.2.2] at hx
      exact y2.fits r x hx⟩
  obtain ⟨dc, dd, t3, p3, v3, w3, n3, h3, a3, y4, kp3⟩ := still_later hk q3 h2 y3 e3 r3
  rcases a3.sleep y4.calm.at_ y4.calm.sweep n3 with z | ⟨_, _, _, w4, _, _, ⟨i, mi, r, x, g1, g2, g3⟩, _⟩
  · exact ⟨o3, by simp, t3, v3, z⟩
  exfalso
  have hrec : d2.c.recs = da.c.recs := by subst w2; exact n2.keeps.2.2.2
  have hl : ∀ r x, d2.c.recs r = some x → 2 < x.rr.ttl := by
    intro r x hx
    rw [hrec] at hx
    obtain ⟨x0, m1, m2, _⟩ := kp2.2 r x hx
    rw [m2]
    exact lasting r x0 m1
  have start : Renewing now d2.c d2.lists { d2.c with now := now } d2.lists := by
    refine ⟨y3.calm.up, rfl, by have := y3.calm.sweep; omega, ?_, ?_, ?_, y3.disco, rfl, fun _ m => m, fun _ h => h, fun r x hx => ⟨x, hx, rfl, .inr ⟨rfl, id⟩⟩⟩
    · subst w2; exact z5
    · subst w2; show db.c.uanswers = []; rw [z7]; exact z3
    · subst w2; show db.c.checkqlist = 0; rw [z7]; exact z2
  obtain ⟨dl, m, to, hl', rl, o, _⟩ := processOut_last hk q3.clock (Renewing now d2.c d2.lists)
    (fun _ _ _ _ _ _ p o _ => o.renewing (fun r x hx => by have := hl r x hx; omega) p) f3 0 h2 start p3
  have fin := o.renewing (fun r x hx => by have := hl r x hx; omega) rl
  obtain ⟨x0, b1, b2, b3⟩ := fin.recs r x g2
  have b4 := hl r x0 b1
  unfold Core.left Core.awake at g3
  have g3 : (x.lastSent.sec : Int) + x.rr.ttl - now.sec ≤ 2 := g3
  rcases b3 with b3 | ⟨b3, b5⟩
  · rw [b3, b2] at g3
    omega
  · have stale : r ∈ d2.lists.q .pause := by
      have hs : (da.c.awake now).stale (List.range sprime) r := by
        refine ⟨i, mi, ?_, x, ?_, g3⟩
        · show (da.c.published i).head? = some r
          rw [fin.pub] at g1
          subst w2
          have g1 : (db.c.published i).head? = some r := g1
          rw [z7] at g1
          exact g1
        · show da.c.recs r = some x
          rw [← hrec, b3]
          exact b1
      subst w2
      exact (z6 r).mpr hs
    have := b5 stale
    rw [w4 .pause] at this
    cases this

/-! ### Daemons that spin -/

/-- `n` steps at the time `now`, none of them with a time to wait, and all with `P`. -/
inductive Spins (env : Env) (now : TV) (P : StepOut → Prop) : Nat → D Ptrs → Prop
  | zero {d : D Ptrs} : Spins env now P 0 d
  | succ {n : Nat} {d d' : D Ptrs} {io : StepIo} {fuel : Nat} {out : StepOut} {t : TV} (q : io.Still now)
      (e : mdnsdStep env io fuel d = .ok (out, d')) (rc : out.rc = 0) (tv : out.tv = some t) (z : t.us = 0) (p : P out)
      (more : Spins env now P n d') : Spins env now P (n + 1) d

/-- A step without input at the time `now`. -/
def stillIo (now : TV) : StepIo := { input := false, clock := fun _ => now, sleepAt := now }

theorem stillIo_still (now : TV) : (stillIo now).Still now := ⟨.inl rfl, rfl, fun _ => rfl, rfl, rfl⟩

theorem processOut_accepted {env : Env} {clock : Nat → TV} {accepted : Nat → Bool} (ha : ∀ k, accepted k = true) :
    ∀ (fuel k : Nat) {d d' : D Ptrs} {rc : Nat} {ms : List (Out × Addr)},
      processOut env clock accepted fuel k d = .ok ((rc, ms), d') → rc = 0
  | 0, _, _, _, _, _, e => by cases e
  | fuel + 1, k, d, d', rc, ms, e => by
    unfold processOut at e
    cases e1 : outMsg env (clock k) d with
    | ub => rw [M.bind_ub e1] at e; cases e
    | hang => rw [M.bind_hang e1] at e; cases e
    | ok p =>
      obtain ⟨⟨ret, m, to⟩, d1⟩ := p
      rw [M.bind_ok e1] at e
      simp only at e
      split at e
      · cases e; rfl
      · rw [if_pos (ha k)] at e
        cases e2 : processOut env clock accepted fuel (k + 1) d1 with
        | ub => rw [M.bind_ub e2] at e; cases e
        | hang => rw [M.bind_hang e2] at e; cases e
        | ok p =>
          obtain ⟨⟨rc2, ms2⟩, d2⟩ := p
          rw [M.bind_ok e2] at e
          cases e
          exact processOut_accepted ha fuel (k + 1) e2

theorem still_step {env : Env} (hk : env.KeepOnExpiry) {d : D Ptrs} (h : Reach env d) (now : TV) :
    ∃ fuel out d', mdnsdStep env (stillIo now) fuel d = .ok (out, d') ∧ out.rc = 0 := by
  obtain ⟨N, out, hs, d', e, _⟩ := C61_step_sound_partial hk h (stillIo now) (by intro g m; cases m) (fun _ => Nat.le_refl _)
  have e := e N (Nat.le_refl _)
  refine ⟨N, out, d', e, ?_⟩
  obtain ⟨rc1, d0, d1, d2, e1, e2, _⟩ := mdnsdStep_parts e
  cases e1
  unfold stepOut at e2
  rw [if_pos ⟨rfl, rfl⟩] at e2
  exact processOut_accepted (fun _ => rfl) _ _ e2

/-- What every step keeps makes the daemon spin. -/
theorem spins_of {env : Env} {now : TV} {P : StepOut → Prop} (J : D Ptrs → Prop)
    (step : ∀ d, J d → ∃ io fuel out d' t, StepIo.Still io now ∧ mdnsdStep env io fuel d = .ok (out, d') ∧ out.rc = 0 ∧
      out.tv = some t ∧ t.us = 0 ∧ P out ∧ J d') : ∀ n d, J d → Spins env now P n d
  | 0, _, _ => .zero
  | n + 1, d, j => by
    obtain ⟨io, fuel, out, d', t, q, e, rc, tv, z, p, j'⟩ := step d j
    exact .succ q e rc tv z p (spins_of J step n d' j')

/-- Nothing to do until the sweep, which is due within two seconds. -/
structure Sweeping (env : Env) (now : TV) (d : D Ptrs) : Prop where
  reach : Reach env d
  up : d.c.shutdown = false
  uans : d.c.uanswers = []
  queues : ∀ w, d.lists.q w = []
  quest : d.c.checkqlist = 0
  disco : d.c.disco = false
  recs : ∀ r, d.c.recs r = none
  pub : ∀ i, d.c.published i = []
  lo : now.sec ≤ d.c.expireall
  hi : d.c.expireall ≤ now.sec + 2

theorem Sweeping.step {env : Env} (hk : env.KeepOnExpiry) {now : TV} {d : D Ptrs} (j : Sweeping env now d) :
    ∃ io fuel out d' t, StepIo.Still io now ∧ mdnsdStep env io fuel d = .ok (out, d') ∧ out.rc = 0 ∧
      out.tv = some t ∧ t.us = 0 ∧ True ∧ Sweeping env now d' := by
  obtain ⟨fuel, out, d', e, rc⟩ := still_step hk j.reach now
  have q := stillIo_still now
  obtain ⟨d1, d2, t, p, tv, w, g⟩ := still_parts q e rc
  have hl : ∀ r x, d.c.recs r = some x → x.rr.ttl ≠ 0 := fun r x hx => by rw [j.recs r] at hx; cases hx
  obtain ⟨dl, m, to, hr, ⟨rl, el⟩, o, h1⟩ := processOut_last hk q.clock
    (fun c l => Renewing now d.c d.lists c l ∧ c.expireall = d.c.expireall)
    (fun _ _ _ _ _ _ p o _ => ⟨o.renewing hl p.1, (o.sweep (by rw [p.1.at_]; exact p.1.sweep)).trans p.2⟩) fuel 0 j.reach
    ⟨⟨j.up, rfl, j.lo, fun w _ => j.queues w, j.uans, j.quest, j.disco, rfl, fun _ m => m, fun _ h => h,
      fun r x hx => ⟨x, hx, rfl, .inr ⟨rfl, id⟩⟩⟩, rfl⟩ p
  have fin := o.renewing hl rl
  have ex : d1.c.expireall = d.c.expireall := (o.sweep (by rw [rl.at_]; exact rl.sweep)).trans el
  obtain ⟨n, h'⟩ := g h1
  have hq : ∀ w, d1.lists.q w = [] := by
    intro w
    by_cases e : w = .pause
    · subst e
      refine List.eq_nil_iff_forall_not_mem.mpr fun r m => ?_
      have := fin.sub r m
      rw [j.queues] at this
      cases this
    · exact fin.only w e
  have hrec : ∀ r, d1.c.recs r = none := by
    intro r
    cases hx : d1.c.recs r with
    | none => rfl
    | some x =>
      obtain ⟨x0, k, _⟩ := fin.recs r x hx
      rw [j.recs r] at k
      cases k
  have hlo := j.lo
  have hhi := j.hi
  have key : t.us = 0 ∧ (∀ w, d2.lists.q w = []) ∧ d2.c.shutdown = d1.c.shutdown ∧ d2.c.uanswers = d1.c.uanswers ∧
      d2.c.checkqlist = d1.c.checkqlist ∧ d2.c.recs = d1.c.recs ∧ d2.c.published = d1.c.published ∧
      d2.c.expireall = d1.c.expireall := by
    generalize d2.c = c2, d2.lists = l2 at n
    cases n with
    | busy h => rcases h with h | h
                · exact absurd fin.uans h
                · exact absurd (hq _) h
    | pause _ h => exact absurd (hq _) h
    | probing _ _ h => exact absurd (hq _) h
    | publish _ _ _ h => exact absurd (hq _) h
    | query _ _ _ _ h => exact absurd fin.quest h
    | gc _ _ _ _ _ h => rw [ex] at h; omega
    | @idle e _ h h1 h2 h3 h4 h5 i o hp he' hh hex hz =>
      refine ⟨?_, fun w => ?_, rfl, rfl, rfl, rfl, rfl, rfl⟩
      · rw [if_neg (by rw [ex] at he'; omega), rounded_us]
        rfl
      · by_cases e : w = .pause
        · subst e
          refine List.eq_nil_iff_forall_not_mem.mpr fun r m => ?_
          obtain ⟨_, _, _, x, hx, _⟩ := (hp r).mp m
          have hx : d1.c.recs r = some x := hx
          rw [hrec r] at hx
          cases hx
        · exact o w e
  obtain ⟨z, a1, a2, a3, a4, a5, a6, a7⟩ := key
  refine ⟨_, fuel, out, d', t, q, e, rc, tv, z, trivial, ?_⟩
  subst w
  exact ⟨h', a2.trans fin.up, a3.trans fin.uans, a1, a4.trans fin.quest, rfl, fun r => by
      show d2.c.recs r = none
      rw [a5]; exact hrec r, fun i => by
      show d2.c.published i = []
      rw [a6, fin.pub]; exact j.pub i, by
      show _ ≤ d2.c.expireall
      rw [a7, ex]; exact hlo, by
      show d2.c.expireall ≤ _
      rw [a7, ex]; exact hhi⟩

/-- A record with a lifetime of at most two seconds is sent again and again. -/
structure Storm (env : Env) (now : TV) (r : Nat) (d : D Ptrs) : Prop where
  reach : Reach env d
  up : d.c.shutdown = false
  uans : d.c.uanswers = []
  only : OnlyPause d.lists
  has : r ∈ d.lists.q .pause
  quest : d.c.checkqlist = 0
  disco : d.c.disco = false
  fits : FitsAlone d.c
  sweep : now.sec ≤ d.c.expireall
  lives : ∀ r x, d.c.recs r = some x → x.rr.ttl ≠ 0
  twoSeconds : ∃ x, d.c.recs r = some x ∧ x.rr.ttl ≤ 2 ∧ x.lastSent.sec ≤ now.sec
  head : ∃ i ∈ List.range sprime, (d.c.published i).head? = some r
  pause : d.c.pause.sec ≤ now.sec ∧ d.c.pause.usec ≤ now.usec

theorem Storm.step {env : Env} (hk : env.KeepOnExpiry) {now : TV} {r : Nat} {d : D Ptrs} (j : Storm env now r d) :
    ∃ io fuel out d' t, StepIo.Still io now ∧ mdnsdStep env io fuel d = .ok (out, d') ∧ out.rc = 0 ∧
      out.tv = some t ∧ t.us = 0 ∧ (∃ m to, (m, to) ∈ out.packets ∧ (Section.an, r) ∈ m.tags ∧ to.port = 5353) ∧
      Storm env now r d' := by
  obtain ⟨fuel, out, d', e, rc⟩ := still_step hk j.reach now
  have q := stillIo_still now
  obtain ⟨d1, d2, t, p, tv, w, g⟩ := still_parts q e rc
  obtain ⟨dl, m, to, hr, ⟨rl, fl, pl, kl⟩, o, h1⟩ := processOut_last hk q.clock
    (fun c l => Renewing now d.c d.lists c l ∧ FitsAlone c ∧ c.pause = d.c.pause ∧ Kept d.c c)
    (fun _ _ _ _ _ _ p o _ => by
      obtain ⟨_, c1, c2, _⟩ := Core.conf_eq o.conf
      exact ⟨o.renewing j.lives p.1, o.kept.fits c1 p.2.1, c2.trans p.2.2.1, p.2.2.2.then o.kept⟩) fuel 0 j.reach
    ⟨⟨j.up, rfl, j.sweep, j.only, j.uans, j.quest, j.disco, rfl, fun _ m => m, fun _ h => h,
      fun r x hx => ⟨x, hx, rfl, .inr ⟨rfl, id⟩⟩⟩, j.fits, rfl, .refl _⟩ p
  have fin := o.renewing j.lives rl
  obtain ⟨_, c1, c2, _⟩ := Core.conf_eq o.conf
  have fits1 := o.kept.fits c1 fl
  have kept1 := kl.then o.kept
  have pause1 : d1.c.pause = d.c.pause := c2.trans pl
  have rest := o.rests rl.up rl.disco fl (by rw [rl.at_]; exact rl.sweep) (fun q x hx => hr.tries q x hx)
    ⟨fun h => absurd (rl.only .probing (by decide)) h, .inl rl.quest⟩
  obtain ⟨n, h'⟩ := g h1
  obtain ⟨x, hx, b1, b2⟩ := j.twoSeconds
  obtain ⟨i, mi, hi⟩ := j.head
  obtain ⟨p1, p2⟩ := j.pause
  obtain ⟨x1, hx1⟩ := Option.isSome_iff_exists.mp (fin.live r (by rw [hx]; rfl))
  have hb : x1.rr.ttl ≤ 2 ∧ x1.lastSent.sec ≤ now.sec := by
    obtain ⟨x0, k1, k2, k3⟩ := fin.recs r x1 hx1
    rw [hx] at k1
    cases k1
    refine ⟨by rw [k2]; exact b1, ?_⟩
    rcases k3 with k3 | ⟨k3, _⟩
    · rw [k3]; exact Nat.le_refl _
    · rw [k3]; exact b2
  have hleft : (d1.c.awake now).left x1 ≤ 2 := by
    unfold Core.left
    show (x1.lastSent.sec : Int) + x1.rr.ttl - now.sec ≤ 2
    omega
  have hp0 : d1.lists.q .pause = [] := by
    refine Classical.byContradiction fun h => ?_
    have := rest.pause h
    rw [fin.at_, pause1] at this
    unfold TV.us at this
    omega
  have hq : ∀ w, d1.lists.q w = [] := by
    intro w
    by_cases e : w = .pause
    · subst e; exact hp0
    · exact fin.only w e
  have hpub : (d1.c.published i).head? = some r := by rw [fin.pub]; exact hi
  have hsw := fin.sweep
  have key : t.us = 0 ∧ OnlyPause d2.lists ∧ r ∈ d2.lists.q .pause ∧ d2.c.shutdown = d1.c.shutdown ∧
      d2.c.uanswers = d1.c.uanswers ∧ d2.c.checkqlist = d1.c.checkqlist ∧ d2.c.recs = d1.c.recs ∧
      d2.c.published = d1.c.published ∧ d2.c.expireall = d1.c.expireall ∧ d2.c.frame = d1.c.frame ∧
      d2.c.pause = ⟨now.sec, d1.c.pause.usec⟩ := by
    generalize d2.c = c2, d2.lists = l2 at n
    cases n with
    | busy h => rcases h with h | h
                · exact absurd fin.uans h
                · exact absurd (hq _) h
    | pause _ h => exact absurd (hq _) h
    | probing _ _ h => exact absurd (hq _) h
    | publish _ _ _ h => exact absurd (hq _) h
    | query _ _ _ _ h => exact absurd fin.quest h
    | gc _ _ _ _ _ h => omega
    | @idle e _ h h1 h2 h3 h4 h5 i' o hp he' hh hex hz =>
      have he2 : ¬ e > 2 := by
        have := hh i mi r x1 hpub hx1
        omega
      refine ⟨?_, o, (hp r).mpr ⟨i, mi, hpub, x1, hx1, hleft⟩, rfl, rfl, rfl, rfl, rfl, rfl, rfl, ?_⟩
      · rw [if_neg he2, rounded_us]
        rfl
      · show (⟨now.sec + _, _⟩ : TV) = _
        rw [if_neg he2]
        rfl
  obtain ⟨z, a1, a2, a3, a4, a5, a6, a7, a8, a9, a10⟩ := key
  refine ⟨_, fuel, out, d', t, q, e, rc, tv, z, ?_, ?_⟩
  · refine C68_waiting_sent_partial hk j.reach j.disco j.fits (.inl rfl) rfl e rc (.inr ⟨j.has, fun k => ?_, j.up⟩)
    show tvdiff now d.c.pause ≤ 0
    rw [tvdiff_us]
    unfold TV.us
    omega
  · subst w
    refine ⟨h', a3.trans fin.up, a4.trans fin.uans, a1, a2, a5.trans fin.quest, rfl, ?_, ?_, ?_, ⟨x1, ?_, hb⟩, ⟨i, mi, ?_⟩, ?_⟩
    · intro r x hx
      have hx : d2.c.recs r = some x := hx
      show _ < d2.c.frame
      rw [a9]
      rw [a6] at hx
      exact fits1 r x hx
    · show _ ≤ d2.c.expireall
      rw [a8]; exact hsw
    · intro r x hx
      have hx : d2.c.recs r = some x := hx
      rw [a6] at hx
      obtain ⟨x0, k1, k2, _⟩ := fin.recs r x hx
      rw [k2]
      exact j.lives r x0 k1
    · show d2.c.recs r = some x1
      rw [a6]; exact hx1
    · show (d2.c.published i).head? = some r
      rw [a7]; exact hpub
    · show d2.c.pause.sec ≤ _ ∧ d2.c.pause.usec ≤ _
      rw [a10, pause1]
      exact ⟨Nat.le_refl _, p2⟩

/-- A record that fits in no packet is first in line. -/
structure Stuck (now : TV) (r : Nat) (rest : List Nat) (x : Rec) (c : Core) (l : Lists) : Prop where
  up : c.shutdown = false
  uans : c.uanswers = []
  first : l.q .pause = r :: rest
  is : c.recs r = some x
  large : ¬ ({} : Out).len + rrLen x.rr < c.frame
  only : OnlyPause l
  due : c.pause.us ≤ now.us
  quest : c.checkqlist = 0
  sweep : now.sec ≤ c.expireall

theorem OutMsg.stuck {now : TV} {r : Nat} {rest : List Nat} {x : Rec} {env : Env} {c c' : Core} {l l' : Lists} {ret : Nat}
    {m : Out} {to : Addr} (n : OutMsg env c l ret m to c' l') (h : Stuck now r rest x c l) (hn : c.now = now) :
    ret = 0 ∧ c' = c ∧ l' = l := by
  have k0 : ∀ {s1}, ROut .pause ⟨c, l, {}, [], 0⟩ s1 → s1 = ⟨c, l, {}, [], 0⟩ := by
    intro s1 n
    generalize hs : (⟨c, l, {}, [], 0⟩ : OSt) = s at n
    cases n with
    | empty => rfl
    | full => rfl
    | skip _ hq hx hf => subst hs; rw [h.first] at hq; cases hq; rw [h.is] at hx; cases hx; exact absurd hf h.large
    | send _ hq hx hf => subst hs; rw [h.first] at hq; cases hq; rw [h.is] at hx; cases hx; exact absurd hf h.large
    | bye _ hq hx hf => subst hs; rw [h.first] at hq; cases hq; rw [h.is] at hx; cases hx; exact absurd hf h.large
  have k1 : ∀ {s1}, ROut .now ⟨c, l, {}, [], 0⟩ s1 → s1 = ⟨c, l, {}, [], 0⟩ := by
    intro s1 n
    obtain ⟨p, q, f⟩ := n.flow
    have := f.q
    have h0 : (⟨c, l, {}, [], 0⟩ : OSt).l.q .now = [] := h.only .now (by decide)
    rw [h0] at this
    exact f.idle (List.append_eq_nil_iff.mp this.symm).1
  have k2 : ∀ {s2}, PubOpt ⟨c, l, {}, [], 0⟩ s2 → s2 = ⟨c, l, {}, [], 0⟩ := by
    intro s2 n
    cases n with
    | no => rfl
    | yes _ p2 => exact absurd (h.only .publish (by decide)) p2
  have k3 : ∀ {s3}, PauseOpt ⟨c, l, {}, [], 0⟩ s3 → s3 = ⟨c, l, {}, [], 0⟩ := by
    intro s3 n
    cases n with
    | no => rfl
    | yes _ _ n => exact k0 n
  have k4 : ∀ {m s4}, ProbeOpt ⟨c, l, m, [], 0⟩ s4 → s4 = ⟨c, l, m, [], 0⟩ := by
    intro m s4 n
    cases n with
    | no => rfl
    | yes p1 => exact absurd (h.only .probing (by decide)) p1
  cases n with
  | unicast hu => rw [h.uans] at hu; cases hu
  | shutdown _ _ _ hs => rw [h.up] at hs; cases hs
  | normal hu n1 n2 _ n3 =>
    cases k1 n1
    cases k2 n2
    cases n3 with
    | answers np _ hr => cases k3 np; exact absurd rfl hr
    | probes np _ _ nb hr => cases k3 np; cases k4 nb; exact absurd rfl hr
    | questions np _ _ nb _ nq ng =>
      cases k3 np
      cases k4 nb
      cases nq with
      | yes hq => exact absurd h.quest hq
      | no =>
        cases ng with
        | no => exact ⟨rfl, rfl, rfl⟩
        | yes _ hg =>
          have := h.sweep
          have hg : c.now.sec > c.expireall := hg
          rw [hn] at hg
          omega

theorem Stuck.step {env : Env} (hk : env.KeepOnExpiry) {now : TV} {r : Nat} {rest : List Nat} {x : Rec} {d : D Ptrs}
    (j : Reach env d ∧ Stuck now r rest x d.c d.lists) :
    ∃ io fuel out d' t, StepIo.Still io now ∧ mdnsdStep env io fuel d = .ok (out, d') ∧ out.rc = 0 ∧
      out.tv = some t ∧ t.us = 0 ∧ out.packets = [] ∧ Reach env d' ∧ Stuck now r rest x d'.c d'.lists := by
  obtain ⟨h, j⟩ := j
  obtain ⟨fuel, out, d', e, rc⟩ := still_step hk h now
  have q := stillIo_still now
  obtain ⟨d1, d2, t, p, tv, w, g⟩ := still_parts q e rc
  have j0 : Stuck now r rest x { d.c with now := now } d.lists := ⟨j.up, j.uans, j.first, j.is, j.large, j.only, j.due, j.quest, j.sweep⟩
  have hp : out.packets = [] := by
    cases fuel with
    | zero => cases p
    | succ fuel =>
      unfold processOut at p
      cases e1 : outMsg env ((stillIo now).clock 0) d with
      | ub => rw [M.bind_ub e1] at p; cases p
      | hang => rw [M.bind_hang e1] at p; cases p
      | ok v =>
        obtain ⟨⟨ret, m, to⟩, d3⟩ := v
        rw [M.bind_ok e1] at p
        simp only at p
        obtain ⟨ret', m', to', d4, e2, _, o⟩ := send_call hk h now
        have e1 : outMsg env now d = _ := e1
        rw [e1] at e2
        cases e2
        have := (o.stuck j0 rfl).1
        rw [if_pos this] at p
        have p := congrArg (fun v : Res ((Nat × List (Out × Addr)) × D Ptrs) => match v with
          | .ok ((_, ms), _) => ms
          | _ => []) p
        exact p.symm
  obtain ⟨dl, m, to, _, ⟨sl, al⟩, o, h1⟩ := processOut_last hk q.clock
    (fun c l => Stuck now r rest x c l ∧ c.now = now)
    (fun _ _ _ _ _ _ p o _ => by
      obtain ⟨_, a, b⟩ := o.stuck p.1 p.2
      rw [a, b]
      exact p) fuel 0 h ⟨j0, rfl⟩ p
  obtain ⟨_, a, b⟩ := o.stuck sl al
  rw [← a, ← b] at sl
  obtain ⟨n, h'⟩ := g h1
  have hb : d1.lists.q .pause ≠ [] := by rw [sl.first]; exact List.cons_ne_nil _ _
  have key : t.us = 0 ∧ Stuck now r rest x d2.c d2.lists := by
    generalize d2.c = c2, d2.lists = l2 at n
    cases n with
    | busy h => rcases h with h | h
                · exact absurd sl.uans h
                · exact absurd (sl.only .now (by decide)) h
    | pause =>
      refine ⟨?_, sl.up, sl.uans, sl.first, sl.is, sl.large, sl.only, sl.due, sl.quest, sl.sweep⟩
      have : tvdiff now d1.c.pause ≤ 0 := by
        rw [tvdiff_us]
        have := sl.due
        omega
      rw [rounded_us]
      rw [Int.toNat_of_nonpos this]
      rfl
    | probing _ h | publish _ h | query _ h | gc _ h | idle _ h => exact absurd h hb
  obtain ⟨z, s2⟩ := key
  subst w
  exact ⟨_, fuel, out, _, t, q, e, rc, tv, z, hp, h', s2.up, s2.uans, s2.first, s2.is, s2.large, s2.only, s2.due, s2.quest, s2.sweep⟩

namespace Sample

/-- A record with a lifetime of two seconds. -/
def twoSeconds : List Op := [.shared (nm 97) 1 2, .setIp 0 ipA] ++ every 101 4 ++ [.sleep (at_ 110)]
/-- A record that is not announced, and the daemon goes to sleep. -/
def unfit : List Op := [.shared (nm 97) 1 120, .sleep (at_ 300)]

/-- Whether all records live longer. -/
def livesB (d : D Ptrs) (n : Nat) : Bool := (List.range d.q.size).all fun r => match d.c.recs r with
  | some x => decide (x.rr.ttl > n)
  | none => true

theorem lives_of {d : D Ptrs} {n : Nat} (hr : Reach quiet d) (h : livesB d n = true) :
    ∀ r x, d.c.recs r = some x → x.rr.ttl > n := by
  intro r x hx
  have hb : r < d.q.size := hr.inv.rinv.bound r (by rw [hx]; rfl)
  have := List.all_eq_true.mp h r (List.mem_range.mpr hb)
  rw [hx] at this
  exact of_decide_eq_true this

def atMostB (d : D Ptrs) (n : Nat) : Bool := (List.range d.q.size).all fun r => match d.c.recs r with
  | some x => decide (x.rr.ttl ≤ n)
  | none => true

theorem atMost_of {d : D Ptrs} {n : Nat} (hr : Reach quiet d) (h : atMostB d n = true) :
    ∀ r x, d.c.recs r = some x → x.rr.ttl ≤ n := by
  intro r x hx
  have hb : r < d.q.size := hr.inv.rinv.bound r (by rw [hx]; rfl)
  have := List.all_eq_true.mp h r (List.mem_range.mpr hb)
  rw [hx] at this
  exact of_decide_eq_true this

theorem two_seconds_storm : Storm quiet (at_ 110) 0 (trace quiet twoSeconds fresh).2 := by
  have hr : Reach quiet (trace quiet twoSeconds fresh).2 := reach_of (by decide +kernel)
  exact ⟨hr, by decide +kernel, by decide +kernel, fun w hw => by cases w <;> first | exact absurd rfl hw | decide +kernel,
    by decide +kernel, by decide +kernel, by decide +kernel, fits_of hr (by decide +kernel), by decide +kernel,
    fun r x hx => Nat.pos_iff_ne_zero.mp (lives_of hr (by decide +kernel) r x hx),
    by
      obtain ⟨x, e, k⟩ := any_some (show ((trace quiet twoSeconds fresh).2.c.recs 0).any
        (fun x => decide (x.rr.ttl ≤ 2 ∧ x.lastSent.sec ≤ 110)) = true by decide +kernel)
      exact ⟨x, e, of_decide_eq_true k⟩,
    by decide +kernel, by decide +kernel⟩

/-- A daemon with packets too small for any record. -/
def small : D Ptrs := newD 1 20 (at_ 100)

theorem unfit_stuck : ∃ x, Stuck (at_ 300) 0 [] x (trace quiet unfit small).2.c (trace quiet unfit small).2.lists := by
  obtain ⟨x, e, k⟩ := any_some (show ((trace quiet unfit small).2.c.recs 0).any
    (fun x => decide (¬ ({} : Out).len + rrLen x.rr < (trace quiet unfit small).2.c.frame)) = true by decide +kernel)
  exact ⟨x, by decide +kernel, by decide +kernel, by decide +kernel, e, of_decide_eq_true k,
    fun w hw => by cases w <;> first | exact absurd rfl hw | decide +kernel, by decide +kernel, by decide +kernel,
    by decide +kernel⟩

/-- What three steps at the same time give: the result, the number of packets and the time to wait. -/
def threeSteps (now : TV) (d : D Ptrs) : List (Nat × Nat × Option TV) :=
  match mdnsdStep quiet (stillIo now) 5 d with
  | .ok (o1, d1) => match mdnsdStep quiet (stillIo now) 5 d1 with
    | .ok (o2, d2) => match mdnsdStep quiet (stillIo now) 5 d2 with
      | .ok (o3, _) => [o1, o2, o3].map fun o => (o.rc, o.packets.length, o.tv)
      | _ => []
    | _ => []
  | _ => []

/-- C103: the hypotheses hold for a daemon with one record, two seconds before it has to be sent
again: the first step queues it and gives no time to wait, the second one sends it. -/
example : Reach quiet (trace quiet announced fresh).2 ∧ (trace quiet announced fresh).2.c.shutdown = false ∧
    (at_ 225).sec + 2 < (trace quiet announced fresh).2.c.expireall ∧ StepIo.Still (stillIo (at_ 225)) (at_ 225) ∧
    (match mdnsdStep quiet (stillIo (at_ 225)) 5 (trace quiet announced fresh).2 with
      | .ok (_, d1) => fitsB d1 && livesB d1 2
      | _ => false) = true ∧
    threeSteps (at_ 225) (trace quiet announced fresh).2 =
      [(0, 0, some (at_ 0)), (0, 1, some (at_ 118)), (0, 0, some (at_ 118))] :=
  ⟨reach_of (by decide +kernel), by decide +kernel, by decide +kernel, stillIo_still _, by decide +kernel, by decide +kernel⟩

theorem fresh_sweeping : Sweeping quiet (at_ 86499) fresh :=
  ⟨(Reach.new _ _ _), rfl, rfl, fun w => by cases w <;> decide +kernel, rfl, rfl, fun _ => rfl, fun _ => rfl, by decide +kernel,
    by decide +kernel⟩

end Sample

open Sample in
/-- A daemon with a record that lives for two seconds sends it in every step, however often
`mdnsd_step` is called at the same time, and never gives a time to wait. -/
theorem C103_short_counterexample : ∃ d, Reach quiet d ∧ FitsAlone d.c ∧ d.c.shutdown = false ∧
    (∀ r x, d.c.recs r = some x → x.rr.ttl = 2) ∧
    ∀ n, Spins quiet (at_ 110) (fun out => ∃ m to, (m, to) ∈ out.packets ∧ (Section.an, 0) ∈ m.tags ∧ to.port = 5353) n d := by
  have hr : Reach quiet (trace quiet twoSeconds fresh).2 := reach_of (by decide +kernel)
  exact ⟨_, hr, two_seconds_storm.fits, two_seconds_storm.up, fun r x hx => by
      have h1 := lives_of hr (n := 1) (by decide +kernel) r x hx
      have h2 := atMost_of hr (n := 2) (by decide +kernel) r x hx
      omega, fun n => spins_of (Storm quiet (at_ 110) 0) (fun _ j => j.step quiet_keeps) n _ two_seconds_storm⟩

open Sample in
/-- A daemon that has nothing at all to do, two seconds before its sweep, never gives a time to wait. -/
theorem C103_sweep_counterexample : ∃ d, Reach quiet d ∧ (∀ r, d.c.recs r = none) ∧ d.c.shutdown = false ∧
    d.c.qlist = [] ∧ ∀ n, Spins quiet (at_ 86499) (fun _ => True) n d :=
  ⟨fresh, (Reach.new _ _ _), fun _ => rfl, rfl, rfl, fun n => spins_of (Sweeping quiet (at_ 86499)) (fun _ j => j.step quiet_keeps) n _ fresh_sweeping⟩

open Sample in
/-- A daemon with a record that fits in no packet, here since the frame size is 20, sends nothing and never gives a time to wait. -/
theorem C103_large_counterexample : ∃ d, Reach quiet d ∧ d.c.shutdown = false ∧
    ∀ n, Spins quiet (at_ 300) (fun out => out.packets = []) n d := by
  obtain ⟨x, j⟩ := unfit_stuck
  exact ⟨(trace quiet unfit small).2, reach_of (by decide +kernel), by decide +kernel, fun n =>
    spins_of (fun d => Reach quiet d ∧ Stuck (at_ 300) 0 [] x d.c d.lists) (fun _ j => Stuck.step quiet_keeps j) n _
      ⟨reach_of (by decide +kernel), j⟩⟩

end Mdns
