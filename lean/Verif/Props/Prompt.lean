import Verif.Props.Finding
import Verif.Props.Step

/-!
# C68: one step sends everything that is due

`mdnsd_step` makes packets until there is nothing more to send. Whatever waits as an answer when
it starts sending is in one of its packets, unless the socket refuses a packet. With this C67 is
lifted from single calls to steps over a socket.
-/

namespace Mdns

/-! ### The loop over `mdnsd_out` -/

theorem packetsOf_cons {k : Call} {h : List Call} : packetsOf (k :: h) = packetsOf [k] ++ packetsOf h := by
  unfold packetsOf
  rw [← List.filterMap_append]
  rfl

/-- A record that waits is sent, or the socket refuses a packet. -/
theorem processOut_sends {env : Env} (hk : env.KeepOnExpiry) {clock : Nat → TV} {accepted : Nat → Bool} :
    ∀ (fuel k : Nat) {d d' : D Ptrs} {rc : Nat} {ms : List (Out × Addr)}, Reach env d →
      processOut env clock accepted fuel k d = .ok ((rc, ms), d') →
      ∃ hs, Calls env d hs d' ∧ packetsOf hs = ms ∧ (∀ c ∈ hs, ∃ t, c.1 = .send t) ∧
        ∀ r, d.c.disco = false → FitsAlone d.c → rc = 0 →
          (r ∈ d.lists.q .now ∨ (r ∈ d.lists.q .pause ∧ (∀ j, k ≤ j → tvdiff (clock j) d.c.pause ≤ 0) ∧ d.c.shutdown = false)) →
          ∃ c ∈ hs, Call.shows .an r c = true ∧ ∀ t ret m to, c = (.send t, .sent ret m to) → (m, to) ∈ ms
  | 0, _, _, _, _, _, _, e => by cases e
  | fuel + 1, k, d, d', rc, ms, h, e => by
    obtain ⟨ret, m, to, d1, e1, n1, o1⟩ := send_call hk h (clock k)
    unfold processOut at e
    rw [M.bind_ok e1] at e
    simp only at e
    have h1 := n1.reach h
    have hdue : ∀ r, (r ∈ d.lists.q .now ∨ (r ∈ d.lists.q .pause ∧ (∀ j, k ≤ j → tvdiff (clock j) d.c.pause ≤ 0) ∧
        d.c.shutdown = false)) → Due (clock k) { d.c with now := clock k } d.lists r := by
      rintro r (hr | ⟨hr, hp, hs⟩)
      · exact .inl hr
      · exact .inr ⟨hr, hp k (Nat.le_refl _), hs⟩
    have hsend : ∀ c ∈ [((.send (clock k), .sent ret m to) : Call)], ∃ t, c.1 = .send t := by
      intro c mc
      cases List.mem_singleton.mp mc
      exact ⟨_, rfl⟩
    split at e
    · rename_i hr0
      cases e
      refine ⟨_, n1, by simp [packetsOf, hr0], hsend, ?_⟩
      intro r hd hf _ hq
      exact absurd hr0 (o1.progress_ret hd hf (hdue r hq)).2
    · rename_i hr0
      have hp : packetsOf [((.send (clock k), .sent ret m to) : Call)] = [(m, to)] := by simp [packetsOf, hr0]
      split at e
      · cases e2 : processOut env clock accepted fuel (k + 1) d1 with
        | ub => rw [M.bind_ub e2] at e; cases e
        | hang => rw [M.bind_hang e2] at e; cases e
        | ok p =>
          obtain ⟨⟨rc2, ms2⟩, d2⟩ := p
          rw [M.bind_ok e2] at e
          cases e
          obtain ⟨hs, n2, p2, s2, g2⟩ := processOut_sends hk fuel (k + 1) h1 e2
          refine ⟨(.send (clock k), .sent ret m to) :: hs, n1.append n2, by rw [packetsOf_cons, hp, p2]; rfl, ?_, ?_⟩
          · intro c mc
            rcases List.mem_cons.mp mc with rfl | mc
            · exact ⟨_, rfl⟩
            · exact s2 c mc
          · intro r hd hf hrc hq
            rcases (o1.progress_ret hd hf (hdue r hq)).1 with ⟨t1, t2⟩ | ⟨t1, t2, _⟩
            · refine ⟨_, List.mem_cons_self .., ?_, ?_⟩
              · unfold Call.shows OpOut.multi OpOut.tags
                simp only [t2, mcast_multi, Bool.true_and, List.contains_iff_mem]
                exact t1
              · intro t ret' m' to' ec
                cases ec
                exact List.mem_cons_self ..
            · obtain ⟨cn, cf, cp, cs, cd⟩ := Core.conf_eq o1.conf
              obtain ⟨c, mc, sc, g⟩ := g2 r (cd.trans hd) (o1.kept.fits cf hf) hrc (by
                rcases hq with hq | ⟨hq, hp, hs⟩
                · exact .inl (t1 hq)
                · refine .inr ⟨t2 hq, fun j hj => ?_, cs.trans hs⟩
                  rw [cp]
                  exact hp j (by omega))
              exact ⟨c, List.mem_cons_of_mem _ mc, sc, fun t ret m to ec => List.mem_cons_of_mem _ (g t ret m to ec)⟩
      · cases e
        refine ⟨_, n1, hp, hsend, ?_⟩
        intro r _ _ hrc
        cases hrc

/-! ### Steps -/

/-- What a step that ends is made of. -/
theorem mdnsdStep_parts {env : Env} {io : StepIo} {fuel : Nat} {d d' : D Ptrs} {out : StepOut}
    (e : mdnsdStep env io fuel d = .ok (out, d')) :
    ∃ rc1 d1 d2 d3, stepIn env io d = .ok (rc1, d1) ∧ stepOut env io fuel rc1 d1 = .ok ((out.rc, out.packets), d2) ∧
      stepWait io out.rc d2 = .ok (out.tv, d3) ∧ d' = { d3 with c := { d3.c with disco := false } } := by
  unfold mdnsdStep at e
  cases e1 : stepIn env io d with
  | ub => rw [M.bind_ub e1] at e; cases e
  | hang => rw [M.bind_hang e1] at e; cases e
  | ok p =>
    obtain ⟨rc1, d1⟩ := p
    rw [M.bind_ok e1] at e
    cases e2 : stepOut env io fuel rc1 d1 with
    | ub => rw [M.bind_ub e2] at e; cases e
    | hang => rw [M.bind_hang e2] at e; cases e
    | ok p =>
      obtain ⟨⟨rc2, ms⟩, d2⟩ := p
      rw [M.bind_ok e2] at e
      simp only at e
      cases e3 : stepWait io rc2 d2 with
      | ub => rw [M.bind_ub e3] at e; cases e
      | hang => rw [M.bind_hang e3] at e; cases e
      | ok p =>
        obtain ⟨tv, d3⟩ := p
        rw [M.bind_ok e3] at e
        cases e
        exact ⟨rc1, d1, d2, d3, rfl, e2, e3, rfl⟩

/-- A step without failure has sent whatever waited after receiving. -/
theorem mdnsdStep_sends {env : Env} (hk : env.KeepOnExpiry) {io : StepIo} {fuel : Nat} {d d' : D Ptrs} {out : StepOut}
    (e : mdnsdStep env io fuel d = .ok (out, d')) (ho : io.output = true) (hrc : out.rc = 0) :
    ∃ d1 d2, stepIn env io d = .ok (0, d1) ∧ (Reach env d1 → ∃ hs, Calls env d1 hs d2 ∧ packetsOf hs = out.packets ∧
      (∀ c ∈ hs, ∃ t, c.1 = .send t) ∧ ∀ r, d1.c.disco = false → FitsAlone d1.c →
        (r ∈ d1.lists.q .now ∨ (r ∈ d1.lists.q .pause ∧ (∀ j, tvdiff (io.clock j) d1.c.pause ≤ 0) ∧ d1.c.shutdown = false)) →
        ∃ c ∈ hs, Call.shows .an r c = true ∧ ∀ t ret m to, c = (.send t, .sent ret m to) → (m, to) ∈ out.packets) := by
  obtain ⟨rc1, d1, d2, _, e1, e2, _⟩ := mdnsdStep_parts e
  unfold stepOut at e2
  split at e2
  · rename_i hc
    rw [hc.1] at e1
    refine ⟨d1, d2, e1, fun h1 => ?_⟩
    obtain ⟨hs, n, p, s, g⟩ := processOut_sends hk _ _ h1 e2
    refine ⟨hs, n, p, s, fun r hd hf hq => g r hd hf hrc (hq.imp id fun hq => ⟨hq.1, fun j _ => hq.2.1 j, hq.2.2⟩)⟩
  · rename_i hc
    have : rc1 = out.rc := by
      have := congrArg (fun p : Res ((Nat × List (Out × Addr)) × D Ptrs) => match p with | .ok x => x.1.1 | _ => rc1) e2
      exact this
    exact absurd ⟨this.trans hrc, ho⟩ hc

/-- After receiving, a step is a series of calls. -/
theorem mdnsdStep_calls {env : Env} (hk : env.KeepOnExpiry) {io : StepIo} {fuel : Nat} {d d' : D Ptrs} {out : StepOut}
    (e : mdnsdStep env io fuel d = .ok (out, d')) {rc : Nat} {d1 : D Ptrs} (e1 : stepIn env io d = .ok (rc, d1))
    (h1 : Reach env d1) : ∃ hs, Calls env d1 hs d' := by
  obtain ⟨orc, oms, otv⟩ := out
  obtain ⟨rc', d1', d2, d3, e1', e2, e3, rfl⟩ := mdnsdStep_parts e
  rw [e1] at e1'
  cases e1'
  obtain ⟨hs, n2⟩ : ∃ hs, Calls env d1 hs d2 := by
    unfold stepOut at e2
    split at e2
    · obtain ⟨hs, n, _⟩ := processOut_sends hk _ _ h1 e2
      exact ⟨hs, n⟩
    · cases e2
      exact ⟨[], .nil⟩
  have h2 := n2.reach h1
  obtain ⟨hs', n3⟩ : ∃ hs, Calls env d2 hs d3 := by
    unfold stepWait at e3
    split at e3
    · obtain ⟨l, hr⟩ := h2.rep
      obtain ⟨a, d', _, e, _⟩ := hr.step (.sleep io.sleepAt) trivial
      have e0 : (Mdns.sleep io.sleepAt >>= fun t => pure (OpOut.time t)) d2 = .ok (a, d') := e
      cases e4 : Mdns.sleep io.sleepAt d2 with
      | ub => rw [M.bind_ub e4] at e3; cases e3
      | hang => rw [M.bind_hang e4] at e3; cases e3
      | ok p =>
        obtain ⟨t, d4⟩ := p
        rw [M.bind_ok e4] at e3 e0
        cases e3
        cases e0
        exact ⟨_, .just (o := .sleep io.sleepAt) trivial e⟩
    · cases e3
      exact ⟨[], .nil⟩
  exact ⟨_, n2.append (n3.append (.just (o := .stepEnd) trivial rfl))⟩

/-- Receiving one datagram in a step. -/
theorem stepIn_one {env : Env} {io : StepIo} {d d1 : D Ptrs} {g : Datagram} {m : Msg} (hi : io.input = true)
    (hg : io.datagrams = [g]) (hs : g.Sound) (hm : g.meaning = .ok m) (hf : io.failed = false) {a : OpOut}
    (e : Mdns.step env (.recv g.clock m g.src) d = .ok (a, d1)) : stepIn env io d = .ok (0, d1) := by
  unfold stepIn
  rw [if_pos hi, hg, hf, C62_one_by_one_partial (by
    intro g' mg
    cases List.mem_singleton.mp mg
    exact hs)]
  unfold takeIn
  rw [hm]
  simp only
  rw [M.assoc, M.bind_ok e]
  rfl

/-- C68 (partial), what waits is sent: a step that receives nothing and is not stopped by the socket sends
every record that waits as an answer, to everyone.  Unique records wait for nothing, shared ones
for the pause.

Assumed are records that fit in a packet alone, that the step does not answer an enumeration of
services (see `C33_discovery_counterexample`) and callbacks that do not end a query when a record
expires (C28). -/
theorem C68_waiting_sent_partial {env : Env} (hk : env.KeepOnExpiry) {d d' : D Ptrs} (h : Reach env d) (plain : d.c.disco = false)
    (fits : FitsAlone d.c) {io : StepIo} (hin : io.input = false ∨ (io.datagrams = [] ∧ io.failed = false)) (ho : io.output = true)
    {fuel : Nat} {out : StepOut} (e : mdnsdStep env io fuel d = .ok (out, d')) (hrc : out.rc = 0) {r : Nat}
    (hq : r ∈ d.q.walk .now ∨ (r ∈ d.q.walk .pause ∧ (∀ j, tvdiff (io.clock j) d.c.pause ≤ 0) ∧ d.c.shutdown = false)) :
    ∃ m to, (m, to) ∈ out.packets ∧ (Section.an, r) ∈ m.tags ∧ to.port = 5353 := by
  obtain ⟨d1, d2, e1, g⟩ := mdnsdStep_sends hk e ho hrc
  have : d1 = d := by
    unfold stepIn at e1
    rcases hin with hin | ⟨h1, h2⟩
    · rw [hin] at e1
      cases e1
      rfl
    · rw [h1, h2] at e1
      split at e1 <;> cases e1 <;> rfl
  subst this
  obtain ⟨hs, n, p, s, g⟩ := g h
  obtain ⟨⟨o, a⟩, mc, sc, gc⟩ := g r plain fits hq
  obtain ⟨t, rfl⟩ := s _ mc
  unfold Call.shows at sc
  rw [Bool.and_eq_true] at sc
  cases a with
  | sent ret m to => exact ⟨m, to, gc _ _ _ _ rfl, List.contains_iff_mem.mp sc.2, beq_iff_eq.mp sc.1⟩
  | _ => cases sc.1

/-- C68 (partial), questions are answered at once: a step receives a packet with a question for a
record that is published, from another host, and the packet does not say that the record is known.
If the socket takes all packets, one of the packets of this very step answers the question, to
everyone; for shared records when the step starts to send at least 119 microseconds later. -/
theorem C68_answered_partial {env : Env} (hk : env.KeepOnExpiry) {h : List Call} {d d' : D Ptrs} (n : Hist env h d)
    (up : d.c.shutdown = false) (plain : d.c.disco = false) (fits : FitsAlone d.c) {io : StepIo} {g : Datagram} {m : Msg}
    (hi : io.input = true) (hg : io.datagrams = [g]) (hf : io.failed = false) (sound : g.Sound) (hm : g.meaning = .ok m)
    (hqr : m.header.qr = false) (hsrc : Elsewhere env d.c g.src) (hdn : ∀ q ∈ m.qd, q.name ≠ discoName)
    {r : Nat} {x : Rec} (hx : d.c.recs r = some x) (hs : ∃ k ∈ h, k.1.sets r = true) (hp : r ∉ d.q.walk .probing)
    (hb : r ∉ d.q.walk .publish) (hq : ∃ q ∈ m.qd, q.about d.c.cls x.rr) (hkn : ∀ a ∈ m.an, carries a x.rr = false)
    (hw : x.unique = 0 → ∀ j, tvdiff (io.clock j) ⟨g.clock.sec, g.clock.usec + 119⟩ ≤ 0)
    (ho : io.output = true) {fuel : Nat} {out : StepOut} (e : mdnsdStep env io fuel d = .ok (out, d')) (hrc : out.rc = 0) :
    ∃ m1 to, (m1, to) ∈ out.packets ∧ (Section.an, r) ∈ m1.tags ∧ to.port = 5353 := by
  obtain ⟨d1, d2, e1, gg⟩ := mdnsdStep_sends hk e ho hrc
  have hr := n.reach
  have wf : ∀ a ∈ m.an, a.WF := messageParse_wf hm
  obtain ⟨l, hrep⟩ := hr.rep
  obtain ⟨a, d3, _, e3, _⟩ := hrep.step (.recv g.clock m g.src) wf
  have := stepIn_one hi hg sound hm hf e3
  rw [this] at e1
  cases e1
  have k : Queried env h d g.clock m g.src d1 := ⟨n, up, hqr, hsrc, wf, a, e3⟩
  obtain ⟨l1, l2, l3⟩ := k.leaves hdn
  have hqueue := k.queue hx hs hp hb hq hkn
  obtain ⟨hs', n', p, s, g'⟩ := gg (hr.step (o := .recv g.clock m g.src) wf e3)
  obtain ⟨⟨o, a⟩, mc, sc, gc⟩ := g' r ((congrArg (·.1) l1 : d1.c.disco = d.c.disco).trans plain) (by
      intro s y hy
      rw [show d1.c.frame = d.c.frame from congrArg (·.2.1) l2]
      exact fits s y (l3 s y hy)) (by
    split at hqueue
    · exact .inl hqueue
    · rename_i hu
      have hu : x.unique = 0 := by simpa using hu
      refine .inr ⟨hqueue, fun j => ?_, (congrArg (·.2) l1 : d1.c.shutdown = d.c.shutdown).trans up⟩
      rw [k.paused hdn hx hs hp hb hq hkn hu]
      have := hw hu j
      unfold tvdiff soon at *
      simp only at *
      have : g.clock.usec % 100 < 100 := Nat.mod_lt _ (by decide)
      omega)
  obtain ⟨t, rfl⟩ := s _ mc
  unfold Call.shows at sc
  rw [Bool.and_eq_true] at sc
  cases a with
  | sent ret m to => exact ⟨m, to, gc _ _ _ _ rfl, List.contains_iff_mem.mp sc.2, beq_iff_eq.mp sc.1⟩
  | _ => cases sc.1

/-- C68 (partial), C67 over steps: the daemon B asks for a name and type that the daemon A has
published and B does not know, or not for more than eight seconds longer. The datagram is received by a step of A whose packets the socket
takes. Then one of the packets of this step, sent to everyone, is such that any step of B that
receives it tells the callback registered for the name and type of the record, unless the query
ends in this step.

Assumed is what C67 assumes; shared records are answered in the step if it sends at least 119
microseconds after receiving. -/
theorem C68_found_partial {envA envB : Env} (hkA : envA.KeepOnExpiry) (hkB : envB.KeepOnExpiry) {top : Bytes}
    {a a' b : D Ptrs} {h : List Call} {nowB : TV} {m : Out} {host : Bytes} {type r : Nat} {x : Rec}
    (hb : AskedFor envB top b nowB m host type) (ha : HasPublished envA top h a r x) (hn : x.rr.name = canon host)
    (ht : typeFits type x.rr) (hc : a.c.cls = b.c.cls)
    (hnew : ∀ n t, ∀ y ∈ b.c.listed n t, SameRec x.rr y.dotted → y.ttl ≤ nowB.sec + 8)
    (hd : ∀ n t, m.asks n t = true → canon n ≠ discoName) {srcB : Addr} (hsrc : Elsewhere envA a.c srcB) {nowA : TV}
    {io : StepIo} (hi : io.input = true) (hg : io.datagrams = [⟨nowA, messagePacket m.builder, srcB⟩]) (hf : io.failed = false)
    (ho : io.output = true) (hw : x.unique = 0 → ∀ j, tvdiff (io.clock j) ⟨nowA.sec, nowA.usec + 119⟩ ≤ 0)
    {fuel : Nat} {out : StepOut} (e : mdnsdStep envA io fuel a = .ok (out, a')) (hrc : out.rc = 0) :
    ∃ m1 to, (m1, to) ∈ out.packets ∧ to.port = 5353 ∧
      ∀ {d d' : D Ptrs} {srcA : Addr} {now : TV} {io' : StepIo} {fuel' : Nat} {out' : StepOut}, Reach envB d →
        d.c.shutdown = false → Elsewhere envB d.c srcA → x.rr.type ≠ 255 →
        (callback d.c.log (canon x.rr.name) x.rr.type).isSome →
        (∀ rr ∈ d.c.listed (canon x.rr.name) x.rr.type, ¬ SameRec rr x.rr.dotted) →
        io'.input = true → io'.datagrams = [⟨now, messagePacket m1.builder, srcA⟩] → io'.failed = false →
        mdnsdStep envB io' fuel' d = .ok (out', d') →
        ∃ evs, d'.c.log = d.c.log ++ evs ∧
          (Event.unregistered (canon x.rr.name) x.rr.type ∈ evs ∨
            ∃ pre q cb rr post, evs = pre ++ .answer q cb rr :: post ∧
              callback (d.c.log ++ pre) (canon x.rr.name) x.rr.type = some cb ∧ SameRec rr x.rr.dotted ∧ rr.ttl ≠ 0) := by
  obtain ⟨d1, d2, e1, gg⟩ := mdnsdStep_sends hkA e ho hrc
  obtain ⟨spec, a1, hpk, hok, e2, hr, hpause⟩ := asked_queued hb ha hn ht hc hnew hd hsrc nowA
  rw [hpk] at hg
  obtain ⟨hs, hm⟩ := C62_built_datagrams top spec hok nowA srcB
  have := stepIn_one hi hg hs hm hf e2
  rw [this] at e1
  cases e1
  obtain ⟨hs', n', p, s, g'⟩ := gg hr.reach
  obtain ⟨⟨o, ans⟩, mc, sc, gc⟩ := g' r hr.plain hr.fits (by
    have hq := hr.queue
    split at hq
    · exact .inl hq
    · rename_i hu
      have hu : x.unique = 0 := by simpa using hu
      refine .inr ⟨hq, fun j => ?_, hr.up⟩
      rw [hpause hu]
      have := hw hu j
      unfold tvdiff soon at *
      simp only at *
      have : nowA.usec % 100 < 100 := Nat.mod_lt _ (by decide)
      omega)
  obtain ⟨t, m1, ret, to, ec, hto, htell⟩ := shown_heard (envB := envB) ha hr n' s mc sc
  refine ⟨m1, to, gc _ _ _ _ ec, hto, ?_⟩
  intro d d' srcA now io' fuel' out' hrd hup hsrcd h255 hreg hnl hi' hg' hf' e'
  obtain ⟨top', spec', d3, evs, g1, g2, g3, g4, g5⟩ := htell (now := now) hrd hup hsrcd h255 hreg hnl
  rw [g1] at hg'
  obtain ⟨hs3, hm3⟩ := C62_built_datagrams top' spec' g2 now srcA
  have e3 := stepIn_one hi' hg' hs3 hm3 hf' g3
  have wf : ∀ a ∈ spec'.seen.an, a.WF := messageParse_wf hm3
  have hr3 : Reach envB d3 := hrd.step (o := .recv now spec'.seen srcA) wf g3
  obtain ⟨hh, n3⟩ := mdnsdStep_calls hkB e' e3 hr3
  obtain ⟨evs', hl⟩ := n3.log hr3
  refine ⟨evs ++ evs', by rw [hl, g4, List.append_assoc], ?_⟩
  rcases g5 with g5 | ⟨pre, q, cb, rr, post, rfl, g6, g7⟩
  · exact .inl (List.mem_append_left _ g5)
  · exact .inr ⟨pre, q, cb, rr, post ++ evs', by simp, g6, g7⟩

/-! ### C69: shared answers are held back -/

theorem ProbeA.pause {pre suf : List Nat} {s t : OSt} (n : ProbeA pre suf s t) {r : Nat} (hr : r ∈ s.l.q .pause) :
    r ∈ t.l.q .pause := by
  induction n with
  | done h => exact hr
  | @verified pre suf s t r' x h hq hx hu n ih =>
    have hm : r' ∈ s.l.q .probing := by rw [hq]; simp
    have hne : r ≠ r' := by
      rintro rfl
      cases h.disj _ _ _ hr hm
    refine ih ?_
    show r ∈ ((s.l.unprobe r').moveTo .publish r').q .pause
    rw [mem_moveTo (h.unprobe hx hm), mem_unprobe h hm]
    simp [hne, hr]
  | ask _ _ _ _ _ ih => exact ih hr

theorem ProbeB.pause {pre suf : List Nat} {s t : OSt} (n : ProbeB pre suf s t) : t.l = s.l := by
  induction n with
  | done h => rfl
  | propose _ _ _ _ _ ih => exact ih

theorem ProbeOpt.pause {s t : OSt} (n : ProbeOpt s t) {r : Nat} (hr : r ∈ s.l.q .pause) : r ∈ t.l.q .pause := by
  cases n with
  | no => exact hr
  | yes _ _ n n' =>
    rw [show OSt.l _ = _ from n'.pause]
    exact n.pause hr

/-- A record that waits for the pause is not among the answers for everyone before, and waits on. -/
theorem OutMsg.held {env : Env} {c : Core} {l : Lists} {ret : Nat} {m : Out} {to : Addr} {c' : Core} {l' : Lists}
    (n : OutMsg env c l ret m to c' l') (hu : ∀ u ∈ c.uanswers, u.to.port ≠ 5353) (i : RInv c l) {r : Nat}
    (hr : r ∈ l.q .pause) (ht : 0 < tvdiff c.now c.pause) :
    ((.an, r) ∈ m.tags → to.port ≠ 5353) ∧ r ∈ l'.q .pause := by
  have two : ∀ {s1 s2 : OSt}, ROut .now ⟨c, l, {}, [], 0⟩ s1 → PubOpt s1 s2 → (Section.an, r) ∉ s2.m.tags ∧ r ∈ s2.l.q .pause ∧
      s2.c.now = c.now ∧ s2.c.pause = c.pause := by
    intro s1 s2 n1 n2
    obtain ⟨a, b, e, ha, hb, hz⟩ := taken_two n1 n2
    obtain ⟨cn, _, cp, _⟩ := Core.conf_eq (n2.conf.trans n1.conf.1)
    refine ⟨fun hm => ?_, by rw [hz]; exact hr, cn, cp⟩
    rw [e] at hm
    obtain ⟨r', hm, e'⟩ := List.mem_map.mp hm
    cases e'
    rcases List.mem_append.mp hm with hm | hm
    · cases i.disj _ _ _ hr (ha.subset hm)
    · cases i.disj _ _ _ hr (hb.subset hm)
  cases n with
  | @unicast u us x _ seen hu' hx na => exact ⟨fun _ => hu u (by rw [hu']; simp), hr⟩
  | shutdown hu n1 n2 _ =>
    obtain ⟨h1, h2, _⟩ := two n1 n2
    exact ⟨fun h => absurd h h1, h2⟩
  | @normal s1 s2 _ _ _ _ hu n1 n2 _ n3 =>
    obtain ⟨h1, h2, h3, h4⟩ := two n1 n2
    have none : ∀ {s3 : OSt}, PauseOpt s2 s3 → s3 = s2 := by
      intro s3 np
      cases np with
      | no => rfl
      | yes _ h =>
        rw [h3, h4] at h
        omega
    cases n3 with
    | @answers s3 _ _ np na _ =>
      have := none np
      subst this
      refine ⟨fun h => absurd h ?_, h2⟩
      intro hm
      rcases na.extra _ hm with hm | ⟨e, _⟩
      · exact h1 hm
      · cases e
    | @probes s3 s4 m0 seen np na hr nb hr2 =>
      have := none np
      subst this
      have a := np.answering (n2.answering (n1.answering (.start c l)))
      obtain ⟨e1, e2⟩ := a.empty hr
      rw [e2] at na
      have := na.none
      subst this
      obtain ⟨rs, _, e3, _⟩ := nb.tags
      have e3 : s4.m.tags = s3.m.tags ++ rs.map fun r => (.ns, r) := e3
      refine ⟨fun h => absurd h ?_, nb.pause h2⟩
      rw [e3, e1]
      simp
    | @questions s3 s4 m0 seen _ _ _ _ np na hr nb hr2 nq ng =>
      have := none np
      subst this
      have a := np.answering (n2.answering (n1.answering (.start c l)))
      obtain ⟨e1, e2⟩ := a.empty hr
      rw [e2] at na
      have := na.none
      subst this
      obtain ⟨rs, _, e3, er⟩ := nb.tags
      have e3 : s4.m.tags = s3.m.tags ++ rs.map fun r => (.ns, r) := e3
      refine ⟨fun h => absurd h ?_, nb.pause h2⟩
      rw [nq.tags, e3, e1]
      simp

/-- C69 (partial): a published record of which several hosts may have their own is not among the
answers for everyone of any packet made within 20 microseconds after the question; and 119
microseconds after the question it may be sent. Missing: RFC 6762 and the comment in the code ask for 20 to
120 milliseconds, see `C69_milliseconds_counterexample`. -/
theorem C69_held_back_partial {env : Env} {h : List Call} {d d' : D Ptrs} {now : TV} {m : Msg} {src : Addr}
    (k : Queried env h d now m src d') (hdn : ∀ q ∈ m.qd, q.name ≠ discoName) {r : Nat} {x : Rec} (hx : d.c.recs r = some x)
    (hs : ∃ k ∈ h, k.1.sets r = true) (hp : r ∉ d.q.walk .probing) (hb : r ∉ d.q.walk .publish)
    (hq : ∃ q ∈ m.qd, q.about d.c.cls x.rr) (hk : ∀ a ∈ m.an, carries a x.rr = false) (hu : x.unique = 0) :
    (20 ≤ tvdiff now d'.c.pause ∧ tvdiff now d'.c.pause ≤ 119) ∧
    ∀ {h' : List Call} {d2 : D Ptrs}, Calls env d' h' d2 → (∀ c ∈ h', ∃ t, c.1 = .send t ∧ tvdiff now t < 20) →
      ∀ c ∈ h', Call.shows .an r c = false := by
  have hpause := k.paused hdn hx hs hp hb hq hk hu
  have hqueue := k.queue hx hs hp hb hq hk
  rw [if_neg (by simp [hu])] at hqueue
  have hr' : Reach env d' := by
    obtain ⟨a, e⟩ := k.done
    exact k.hist.reach.step (o := .recv now m src) k.wf e
  refine ⟨?_, ?_⟩
  · rw [hpause]
    unfold tvdiff soon
    simp only
    have : now.usec % 100 < 100 := Nat.mod_lt _ (by decide)
    omega
  · intro h' d2 n ht
    have H := n.induct (P := fun h1 c l => r ∈ l.q .pause ∧ c.pause = soon now ∧ ∀ c ∈ h1, Call.shows .an r c = false) hr'
      ⟨hqueue, hpause, by simp⟩ (by
      rintro h1 c l o a c' l' ⟨h2, e⟩ ⟨p1, p2, p3⟩ hi hu hso hdid hi'
      obtain ⟨t, rfl, ht⟩ := ht (o, a) (by rw [e]; simp)
      cases hdid with
      | @send _ ret m to _ _ _ _ ho =>
        have hi1 := hi.rinv.congr (c' := { c with now := t }) rfl rfl rfl
        obtain ⟨g1, g2⟩ := ho.held hu hi1 p1 (by
          show 0 < tvdiff t c.pause
          rw [p2]
          unfold tvdiff soon at *
          simp only at *
          omega)
        obtain ⟨_, _, cp, _⟩ := Core.conf_eq ho.conf
        refine ⟨g2, cp.trans p2, fun k mk => ?_⟩
        rcases List.mem_append.mp mk with mk | mk
        · exact p3 k mk
        · cases List.mem_singleton.mp mk
          unfold Call.shows OpOut.multi OpOut.tags
          rw [Bool.eq_false_iff]
          intro hh
          rw [Bool.and_eq_true] at hh
          exact g1 (List.contains_iff_mem.mp hh.2) (beq_iff_eq.mp hh.1))
    exact H.2.2

/-! ### Examples -/

namespace Sample

/-- A step a second after a question for everyone is received. -/
def askedStep : StepIo := { datagrams := [⟨at_ 110, query, other⟩], clock := fun _ => at_ 111, sleepAt := at_ 111 }

/-- A step that receives nothing, a second later. -/
def idleStep : StepIo := { clock := fun _ => at_ 112, sleepAt := at_ 112 }

def theAddress (x : Rec) : Bool := decide (x.rr.name = nm 97) && x.rr.type == 1

/-- C68: the hypotheses of `C68_answered_partial` hold for a daemon that has announced one record. -/
example : Hist quiet (trace quiet announced fresh).1 (trace quiet announced fresh).2 ∧
    (trace quiet announced fresh).2.c.shutdown = false ∧ (trace quiet announced fresh).2.c.disco = false ∧
    FitsAlone (trace quiet announced fresh).2.c ∧
    (⟨at_ 110, query, other⟩ : Datagram).Sound ∧
    (match (⟨at_ 110, query, other⟩ : Datagram).meaning with
      | .ok m => m.header.qr == false && m.qd.all (fun q => q.name != discoName) && m.qd.any (fun q => q.name == nm 97) && m.an.isEmpty
      | _ => false) = true ∧
    ((trace quiet announced fresh).2.c.recs 0).any theAddress = true ∧
    (trace quiet announced fresh).1.any (fun k => k.1.sets 0) = true ∧
    0 ∉ (trace quiet announced fresh).2.q.walk .probing ∧ 0 ∉ (trace quiet announced fresh).2.q.walk .publish ∧
    (∀ j, tvdiff (askedStep.clock j) ⟨(at_ 110).sec, (at_ 110).usec + 119⟩ ≤ 0) ∧
    (match mdnsdStep quiet askedStep 5 (trace quiet announced fresh).2 with
      | .ok (out, _) => out.rc == 0 && out.packets.map (fun p => (p.1.tags, p.2.port)) == [([(.an, 0)], 5353)]
      | _ => false) = true :=
  ⟨hist_of (by decide +kernel), by decide +kernel, by decide +kernel, fits_of (reach_of (by decide +kernel)) (by decide +kernel),
    query_sound _ _, by decide +kernel, by decide +kernel, by decide +kernel, by decide +kernel, by decide +kernel,
    fun _ => show tvdiff (at_ 111) ⟨(at_ 110).sec, (at_ 110).usec + 119⟩ ≤ 0 by decide, by decide +kernel⟩

/-- C68: the same question taken in too early to answer; the record waits, and the next step sends
it. -/
example : Reach quiet (trace quiet (announced ++ [.recv (at_ 110) (ask (nm 97) 1) other]) fresh).2 ∧
    (0 ∈ (trace quiet (announced ++ [.recv (at_ 110) (ask (nm 97) 1) other]) fresh).2.q.walk .pause ∨
      0 ∈ (trace quiet (announced ++ [.recv (at_ 110) (ask (nm 97) 1) other]) fresh).2.q.walk .now) ∧
    tvdiff (at_ 112) (trace quiet (announced ++ [.recv (at_ 110) (ask (nm 97) 1) other]) fresh).2.c.pause ≤ 0 ∧
    (match mdnsdStep quiet idleStep 5 (trace quiet (announced ++ [.recv (at_ 110) (ask (nm 97) 1) other]) fresh).2 with
      | .ok (out, _) => out.rc == 0 && out.packets.map (fun p => (p.1.tags, p.2.port)) == [([(.an, 0)], 5353)]
      | _ => false) = true :=
  ⟨reach_of (by decide +kernel), by decide +kernel, by decide +kernel, by decide +kernel⟩

/-- A step that receives a packet. -/
def hearing (now : TV) (m : Out) : StepIo :=
  { datagrams := [⟨now, messagePacket m.builder, other⟩], clock := fun _ => at_ 112, sleepAt := at_ 112 }

/-- C68: asking, answering and hearing with steps. -/
def stepFinds : Option (List Answer) :=
  match mdnsdStep quiet (hearing (at_ 111) (question (at_ 110) (browser 12))) 5 holder with
  | .ok (out, _) => match out.packets with
    | [(m, _)] => match mdnsdStep quiet (hearing (at_ 112) m) 5 (browser 12) with
      | .ok (_, d) => some (answersOf d.c.log)
      | _ => none
    | _ => none
  | _ => none

example : stepFinds.map (·.map fun b => (b.name, b.type, b.rdname)) = some [(nameA, 12, some nameBA)] := by decide +kernel

/-- A daemon that has announced a record, and is asked for it. -/
def justAsked : D Ptrs := (trace quiet [.recv (at_ 110) (ask (nm 97) 1) other] (trace quiet announced fresh).2).2

/-- C69: the hypotheses of `C69_held_back_partial` hold, and there is a packet within 20 microseconds. -/
example : Queried quiet (trace quiet announced fresh).1 (trace quiet announced fresh).2 (at_ 110) (ask (nm 97) 1) other justAsked ∧
    (∀ q ∈ (ask (nm 97) 1).qd, q.name ≠ discoName) ∧
    ((trace quiet announced fresh).2.c.recs 0).any (fun x => theAddress x && x.unique == 0) = true ∧
    (trace quiet announced fresh).1.any (fun k => k.1.sets 0) = true ∧
    0 ∉ (trace quiet announced fresh).2.q.walk .probing ∧ 0 ∉ (trace quiet announced fresh).2.q.walk .publish ∧
    Calls quiet justAsked (trace quiet [.send ⟨110, 19⟩] justAsked).1 (trace quiet [.send ⟨110, 19⟩] justAsked).2 ∧
    tvdiff (at_ 110) ⟨110, 19⟩ < 20 :=
  ⟨queried_of (by decide +kernel) (by decide +kernel) (by decide +kernel) (by decide +kernel) rfl, by decide +kernel,
    by decide +kernel, by decide +kernel, by decide +kernel, by decide +kernel,
    calls_of (by decide +kernel), by decide⟩

end Sample

open Sample in
/-- C69: the answer with a shared record is made 200 microseconds after the question; 20 milliseconds
are meant (`libmdnsd/mdnsd.c:329-331` counts in microseconds). -/
theorem C69_milliseconds_counterexample : ∃ (h : List Call) (d d' d2 : D Ptrs) (now t : TV) (m : Msg) (a : OpOut) (x : Rec),
    Queried quiet h d now m other d' ∧ d.c.recs 0 = some x ∧ x.unique = 0 ∧ 0 ∉ d.q.walk .probing ∧ 0 ∉ d.q.walk .publish ∧
    (∃ q ∈ m.qd, q.about d.c.cls x.rr) ∧ m.an = [] ∧
    Mdns.step quiet (.send t) d' = .ok (a, d2) ∧ Call.shows .an 0 (.send t, a) = true ∧ 0 ≤ tvdiff now t ∧ tvdiff now t < 20000 := by
  have k : Queried quiet (trace quiet announced fresh).1 (trace quiet announced fresh).2 (at_ 110) (ask (nm 97) 1) other justAsked :=
    queried_of (by decide +kernel) (by decide +kernel) (by decide +kernel) (by decide +kernel) rfl
  have hx : ((trace quiet announced fresh).2.c.recs 0).any (fun x => decide (x.rr.name = nm 97 ∧ x.rr.type = 1 ∧ x.unique = 0)) = true := by
    decide +kernel
  obtain ⟨x, hx, hp⟩ := Option.any_eq_true _ _ |>.mp hx
  obtain ⟨h1, h2, h3⟩ := of_decide_eq_true hp
  have hr : Reach quiet justAsked := by
    obtain ⟨a, e⟩ := k.done
    exact k.hist.reach.step (o := .recv (at_ 110) (ask (nm 97) 1) other) k.wf e
  obtain ⟨a, e⟩ := step_of hr (o := .send ⟨110, 200⟩) (.inl quiet_keeps)
  have hsh : (match Mdns.step quiet (.send ⟨110, 200⟩) justAsked with
    | .ok (a, _) => Call.shows .an 0 (.send ⟨110, 200⟩, a)
    | _ => false) = true := by decide +kernel
  rw [e] at hsh
  exact ⟨_, _, _, _, _, _, _, a, x, k, hx, h3, by decide +kernel, by decide +kernel,
    ⟨⟨nm 97, 1, 1⟩, by decide +kernel, by
      have : (trace quiet announced fresh).2.c.cls = 1 := by decide +kernel
      exact ⟨this.symm, h1, .inl h2.symm⟩⟩, rfl, e, hsh, by decide, by decide⟩

end Mdns
