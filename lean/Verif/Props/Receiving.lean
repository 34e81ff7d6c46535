import Verif.Lemmas.Receive
import Verif.Lemmas.Lives
import Verif.Props.Cache
import Verif.Props.Records

/-!
# C32, C36, C37: receiving queries and own packets
-/

namespace Mdns

/-! ### Specification -/

/-- A daemon that was not shut down receives a query of another host. -/
structure Queried (env : Env) (h : List Call) (d : D Ptrs) (now : TV) (m : Msg) (src : Addr) (d' : D Ptrs) : Prop where
  hist : Hist env h d
  up : d.c.shutdown = false
  query : m.header.qr = false
  elsewhere : Elsewhere env d.c src
  wf : ∀ a ∈ m.an, a.WF
  done : ∃ a, Mdns.step env (.recv now m src) d = .ok (a, d')

/-- `mdnsd_unique` was called, the probes are not yet out, and the data of the record was never
set. -/
def Rec.Unset (d : D Ptrs) (r : Nat) (x : Rec) : Prop :=
  d.c.recs r = some x ∧ r ∈ d.q.walk .probing ∧ x.modified = false

/-- The packet claims the name of the record, with other data: a question about it, and an answer
to this question that does not say what the record says. -/
def Claims (cls : Nat) (m : Msg) (x : Rec) : Prop :=
  ∃ q ∈ m.qd, q.about cls x.rr ∧ q.name ≠ discoName ∧
    ∃ a ∈ m.an, a.name = q.name ∧ a.type = q.type ∧ carries a x.rr = false

/-! ### Proofs -/

theorem answers_iff {q : Question} {a : Resource} : answers q a = true ↔ a.name = q.name ∧ a.type = q.type := by
  unfold answers
  rw [Bool.and_eq_true, beq_iff_eq, beq_iff_eq]
  constructor <;> rintro ⟨h1, h2⟩ <;> exact ⟨h2.symm, h1.symm⟩

/-- The comparison the daemon makes is the one of the specification. -/
theorem aMatch_carries {q : Question} {a : Resource} {b : Answer} {cls : Nat} (ha : a.WF) (hq : q.about cls b)
    (h : answers q a = true) : aMatch a b = carries a b := by
  rw [← carries_eq ha]
  obtain ⟨h1, h2⟩ := answers_iff.mp h
  have : b.is a.name a.type = true := (is_iff ..).mpr ⟨by rw [h1]; exact hq.2.1, by rw [h2]; exact hq.2.2⟩
  unfold hit
  rw [this, Bool.true_and]

theorem carries_both {a : Resource} {b : Answer} (h : carries a b = true) : b.name = a.name ∧ b.type = a.type := by
  unfold carries at h
  rw [Bool.and_eq_true, Bool.and_eq_true, beq_iff_eq, beq_iff_eq] at h
  exact h.1

theorem Queried.run {env : Env} {h : List Call} {d d' : D Ptrs} {now : TV} {m : Msg} {src : Addr}
    (k : Queried env h d now m src d') :
    ∃ c1, Locals env { d.c with now := now } c1 ∧ Foreign env c1 src ∧ InQs env m src m.qd false c1 d.lists d'.c d'.lists ∧
      c1.cls = d.c.cls := by
  obtain ⟨a, e⟩ := k.done
  have hd := k.hist.reach.did (o := .recv now m src) k.wf e
  have hf := k.elsewhere.foreign k.hist.reach
  generalize d'.c = c', d'.lists = l' at hd
  cases hd with
  | recv wf n =>
    cases n with
    | shutdown h => rw [k.up] at h; cases h
    | own _ _ hn => exact absurd hf hn
    | response _ hq => rw [k.query] at hq; cases hq
    | query _ _ hl hf' n =>
      refine ⟨_, hl, hf' hf, n, ?_⟩
      obtain ⟨_, _, _, rfl, _⟩ := hl
      rfl

/-- C32, suppression: if every question about the record names its type and is not for
`_services._dns-sd._udp.local.`, and the packet lists the record as known, the record is not
queued by it.  Missing: questions of type ANY and for the name of the service enumeration, see
the counterexamples. -/
theorem C32_known_not_queued_partial {env : Env} {h : List Call} {d d' : D Ptrs} {now : TV} {m : Msg} {src : Addr}
    (k : Queried env h d now m src d') {r : Nat} {x : Rec} (hx : d.c.recs r = some x)
    (hq : ∀ q ∈ m.qd, q.about d.c.cls x.rr → q.type ≠ 255 ∧ q.name ≠ discoName)
    (hk : ∃ a ∈ m.an, carries a x.rr = true) : ∀ w, r ∈ d'.q.walk w → r ∈ d.q.walk w := by
  obtain ⟨c1, hl, hf, n, hc⟩ := k.run
  obtain ⟨a, ma, hca⟩ := hk
  intro w hw
  have hr := k.hist.reach
  have i1 : DInv d'.c d'.lists := by
    obtain ⟨b, e⟩ := k.done
    exact (hr.step (o := .recv now m src) k.wf e).inv
  have hv := n.known (r := r) (x := x) (hl.recs ▸ hx) fun q mq ha => by
    rw [hc] at ha
    obtain ⟨h1, h2⟩ := hq q mq ha
    refine ⟨h2, a, ma, ?_⟩
    obtain ⟨e1, e2⟩ := carries_both hca
    have ht : q.type = x.rr.type := by
      rcases ha.2.2 with h | h
      · exact h
      · exact absurd h h1
    have haq : answers q a = true := answers_iff.mpr ⟨by rw [← e1]; exact ha.2.1, by rw [← e2]; exact ht.symm⟩
    exact ⟨haq, by rw [aMatch_carries (k.wf a ma) ha haq]; exact hca⟩
  have h1 := (mem_place i1.rinv w).mp hw
  rcases hv with hv | hv
  · have h2 : d'.lists.place r = d.lists.place r := congrArg View.at_ hv
    exact (mem_place hr.inv.rinv w).mpr (h2 ▸ h1)
  · have h2 : d'.lists.place r = none := congrArg View.at_ hv
    rw [h2] at h1
    cases h1

/-- Which queue an answer is put in. -/
theorem Queried.queue {env : Env} {h : List Call} {d d' : D Ptrs} {now : TV} {m : Msg} {src : Addr}
    (k : Queried env h d now m src d') {r : Nat} {x : Rec} (hx : d.c.recs r = some x)
    (hs : ∃ k ∈ h, k.1.sets r = true) (hp : r ∉ d.q.walk .probing) (hb : r ∉ d.q.walk .publish)
    (hq : ∃ q ∈ m.qd, q.about d.c.cls x.rr) (hk : ∀ a ∈ m.an, carries a x.rr = false) :
    r ∈ d'.q.walk (if x.unique ≠ 0 then .now else .pause) := by
  obtain ⟨c1, hl, hf, n, hc⟩ := k.run
  have hr := k.hist.reach
  have i1 : DInv d'.c d'.lists := by
    obtain ⟨b, e⟩ := k.done
    exact (hr.step (o := .recv now m src) k.wf e).inv
  have np : ¬ x.Probing := fun h => hp ((hr.inv.rinv.probing r x hx).mpr h)
  have h4 : ¬ x.tries < 4 := by
    rcases k.hist.wasSet hs x hx with h | h | h
    · exact absurd h np
    · exact absurd ((mem_place hr.inv.rinv _).mpr h) hb
    · omega
  have e := n.queued (r := r) (x := x) (hl.recs ▸ hx) h4 (fun h => np h.1) (fun q mq ha => by
    rw [hc] at ha
    rintro ⟨a, ma, h1, h2⟩
    rw [aMatch_carries (k.wf a ma) ha h1, hk a ma] at h2
    cases h2) (.inl (by rw [hc]; exact hq))
  exact (mem_place i1.rinv _).mpr (congrArg View.at_ e)

/-- C32, answering: a record that was set, has been announced, and is asked for in a query that
does not list it as known is queued. -/
theorem C32_queued {env : Env} {h : List Call} {d d' : D Ptrs} {now : TV} {m : Msg} {src : Addr}
    (k : Queried env h d now m src d') {r : Nat} {x : Rec} (hx : d.c.recs r = some x)
    (hs : ∃ k ∈ h, k.1.sets r = true) (hp : r ∉ d.q.walk .probing) (hb : r ∉ d.q.walk .publish)
    (hq : ∃ q ∈ m.qd, q.about d.c.cls x.rr) (hk : ∀ a ∈ m.an, carries a x.rr = false) :
    r ∈ d'.q.walk .now ∨ r ∈ d'.q.walk .pause := by
  have := k.queue hx hs hp hb hq hk
  split at this
  · exact .inl this
  · exact .inr this

theorem Unset.bare {d : D Ptrs} {r : Nat} {x : Rec} (h : x.Unset d r) {env : Env} (hr : Reach env d) : x.Bare :=
  ⟨(hr.inv.rinv.probing r x h.1).mp h.2.1, h.2.2⟩

theorem clash_of {an : List Resource} {q : Question} {x : Rec} {cls : Nat} (wf : ∀ a ∈ an, a.WF) (hq : q.about cls x.rr) :
    Clash q an x ↔ ∃ a ∈ an, a.name = q.name ∧ a.type = q.type ∧ carries a x.rr = false := by
  constructor
  · rintro ⟨a, ma, h1, h2⟩
    obtain ⟨e1, e2⟩ := answers_iff.mp h1
    exact ⟨a, ma, e1, e2, by rw [← aMatch_carries (wf a ma) hq h1]; exact h2⟩
  · rintro ⟨a, ma, e1, e2, h⟩
    have h1 := answers_iff.mpr ⟨e1, e2⟩
    exact ⟨a, ma, h1, by rw [aMatch_carries (wf a ma) hq h1]; exact h⟩

/-- C36, when conflicts are reported: while a record is being probed whose data was not set yet,
and another host claims its name with other data, the conflict is reported once; the record is
gone, without a goodbye.  Missing: records whose data was set, probes whose data is in the
authority section, and responses; see the counterexamples. -/
theorem C36_reported_partial {env : Env} {h : List Call} {d d' : D Ptrs} {now : TV} {m : Msg} {src : Addr}
    (k : Queried env h d now m src d') {r : Nat} {x : Rec} (hx : x.Unset d r) (hc : Claims d.c.cls m x) :
    (∃ evs, d'.c.log = d.c.log ++ evs ∧ conflictsOf r evs = 1) ∧ d'.c.recs r = none ∧ ∀ w, r ∉ d'.q.walk w := by
  obtain ⟨c1, hl, hf, n, hcl⟩ := k.run
  have hr := k.hist.reach
  have hx1 : c1.recs r = some x := hl.recs ▸ hx.1
  obtain ⟨q, mq, ha, hd, hca⟩ := hc
  have h0 := n.conflict hf hx1 (Unset.bare hx hr) mq (by rw [hcl]; exact ha) hd ((clash_of k.wf ha).mpr hca)
  refine ⟨?_, h0, fun w mw => ?_⟩
  · obtain ⟨evs, e, hev⟩ := n.log r
    have e0 : c1.log = d.c.log := by obtain ⟨_, _, _, rfl, _⟩ := hl; rfl
    refine ⟨evs, by rw [e, e0], ?_⟩
    have a0 : d'.c.alive r = 0 := by unfold Core.alive; rw [h0]; rfl
    have a1 : c1.alive r = 1 := by unfold Core.alive; rw [hx1]; rfl
    omega
  · obtain ⟨b, e⟩ := k.done
    have := (hr.step (o := .recv now m src) k.wf e).inv.rinv.qlive w r mw
    rw [h0] at this
    cases this

/-- C36, only then: if a query changes a record or a conflict of it is reported, it was being
probed, not set, and the packet claims its name with other data; at most one conflict is
reported. -/
theorem C36_only_then {env : Env} {h : List Call} {d d' : D Ptrs} {now : TV} {m : Msg} {src : Addr}
    (k : Queried env h d now m src d') (r : Nat) :
    ∃ evs, d'.c.log = d.c.log ++ evs ∧ conflictsOf r evs ≤ 1 ∧
      (conflictsOf r evs ≠ 0 ∨ d'.c.recs r ≠ d.c.recs r → ∃ x, x.Unset d r ∧ Claims d.c.cls m x) := by
  obtain ⟨c1, hl, hf, n, hcl⟩ := k.run
  have hr := k.hist.reach
  obtain ⟨evs, e, hev⟩ := n.log r
  have e0 : c1.log = d.c.log := by obtain ⟨_, _, _, rfl, _⟩ := hl; rfl
  have er : c1.recs r = d.c.recs r := by rw [hl.recs]
  refine ⟨evs, by rw [e, e0], ?_, fun hch => ?_⟩
  · have : c1.alive r ≤ 1 := by unfold Core.alive; split <;> omega
    omega
  · cases hx : d.c.recs r with
    | none =>
      exfalso
      have h1 : c1.recs r = none := er.trans hx
      have h0 := n.none h1
      have a1 : c1.alive r = 0 := by unfold Core.alive; rw [h1]; rfl
      rcases hch with h | h
      · omega
      · exact h (h0.trans hx.symm)
    | some x =>
      have h1 : c1.recs r = some x := er.trans hx
      rcases n.freed h1 with h2 | ⟨_, hb, q, mq, ha, hd, hcc⟩
      · exfalso
        have a1 : c1.alive r = 1 := by unfold Core.alive; rw [h1]; rfl
        have a2 : d'.c.alive r = 1 := by unfold Core.alive; rw [h2]; rfl
        rcases hch with h | h
        · omega
        · exact h (h2.trans hx.symm)
      · rw [hcl] at ha
        exact ⟨x, ⟨hx, (hr.inv.rinv.probing r x hx).mpr hb.1, hb.2⟩, q, mq, ha, hd, (clash_of k.wf ha).mp hcc⟩

/-- The packet comes from this host: from the address the application set, or from one that the
system reports whenever it is asked. -/
def Own (env : Env) (c : Core) (src : Addr) : Prop :=
  src.ip = .v4 c.addr ∨ src.ip = .v6 c.addr6 ∨ ∀ n, ∃ l, env.ifaddrs n = some l ∧ src.ip ∈ l

theorem isLocal_own {env : Env} {c : Core} {src : Addr} (h : Own env c src)
    (hr : c.refreshed ≠ 0 → ∃ k, env.ifaddrs k = some c.locals) {Q : Type} [QOps Q] (q : Q) :
    ∃ c', isLocal env src ⟨c, q⟩ = .ok (true, ⟨c', q⟩) ∧ Locals env c c' := by
  rw [isLocal_eq]
  split
  · exact ⟨_, rfl, .refl c⟩
  · rename_i ho
    refine ⟨_, ?_, refreshLocals_locals env false c⟩
    congr 2
    have own : ∀ a, a = c.addr → src.ip ≠ .v4 a := fun a e h => ho (by unfold Core.ownAddr; rw [h, e]; simp)
    have own6 : ∀ a, a = c.addr6 → src.ip ≠ .v6 a := fun a e h => ho (by unfold Core.ownAddr; rw [h, e]; simp)
    rcases h with h | h | h
    · exact absurd h (own _ rfl)
    · exact absurd h (own6 _ rfl)
    · rw [List.contains_iff_mem]
      unfold refreshLocals
      split
      · rename_i hc
        obtain ⟨k, hk⟩ := hr hc.1
        obtain ⟨l, e, m⟩ := h k
        rw [hk] at e
        cases e
        exact m
      · obtain ⟨l, e, m⟩ := h c.nifs
        rw [e]
        exact m

/-- C37: a packet from one of this host's addresses changes nothing, whatever is in it; only the
time and the daemon's idea of its addresses are brought up to date.  Missing: addresses the system
did not report the last time, up to five seconds ago, see the counterexample. -/
theorem C37_own_ignored_partial {env : Env} {d d' : D Ptrs} (hr : Reach env d) {now : TV} {m : Msg} {src : Addr}
    (ho : Own env d.c src) {a : OpOut} (e : Mdns.step env (.recv now m src) d = .ok (a, d')) :
    d'.q = d.q ∧ ∃ t ls b n, d'.c = { d.c with now := t, locals := ls, refreshed := b, nifs := n } := by
  obtain ⟨c, q⟩ := d
  have key : ∃ (ret : Nat) (t : TV) (ls : List Ip) (b n : Nat), inMsg env now m src ⟨c, q⟩ =
      .ok (ret, ⟨{ c with now := t, locals := ls, refreshed := b, nifs := n }, q⟩) := by
    unfold inMsg
    rw [M.bind_ok core_ok]
    by_cases hs : c.shutdown = true
    · rw [if_pos hs]
      exact ⟨1, c.now, c.locals, c.refreshed, c.nifs, rfl⟩
    · rw [if_neg hs, M.bind_ok modC_ok]
      obtain ⟨c', e', hl⟩ := isLocal_own (c := { c with now := now }) (Q := Ptrs) ho hr.refreshed q
      rw [M.bind_ok e', if_pos rfl]
      obtain ⟨ls, b, n, rfl, _⟩ := hl
      exact ⟨0, now, ls, b, n, rfl⟩
  obtain ⟨ret, t, ls, b, n, hk⟩ := key
  have e2 : Mdns.step env (.recv now m src) ⟨c, q⟩ =
      .ok (.unit, ⟨{ c with now := t, locals := ls, refreshed := b, nifs := n }, q⟩) := by
    show (inMsg env now m src >>= fun _ => pure OpOut.unit) _ = _
    rw [M.bind_ok hk]
    rfl
  rw [e2] at e
  cases e
  exact ⟨rfl, t, ls, b, n, rfl⟩

/-! ### Examples -/

namespace Sample

theorem elsewhere {d : D Ptrs} (h1 : d.c.addr ≠ #v[10, 0, 0, 9]) : Elsewhere quiet d.c other where
  v4 a e := by cases e; exact h1.symm
  v6 a e := by cases e
  system n l e := by cases e; simp

theorem step_of {env : Env} {d : D Ptrs} (hr : Reach env d) {o : Op} (hs : OpSafe env d.c d.q.walk o) :
    ∃ a, Mdns.step env o d = .ok (a, (trace env [o] d).2) := by
  obtain ⟨l, hr⟩ := hr.rep
  obtain ⟨a, d', _, e, _⟩ := hr.step o hs
  refine ⟨a, ?_⟩
  rw [trace, e]
  rfl

theorem queried_of {ops : List Op} {now : TV} {m : Msg} (h0 : safeRunB quiet fresh ops = true)
    (hd : opSafeB (trace quiet ops fresh).2 (.recv now m other) = true)
    (ha : (trace quiet ops fresh).2.c.addr ≠ #v[10, 0, 0, 9]) (hs : (trace quiet ops fresh).2.c.shutdown = false)
    (hq : m.header.qr = false) : Queried quiet (trace quiet ops fresh).1 (trace quiet ops fresh).2 now m other
      (trace quiet [.recv now m other] (trace quiet ops fresh).2).2 := by
  have ho : OpSafe quiet _ _ (.recv now m other) := opSafeB_sound quiet_keeps hd
  exact ⟨hist_of h0, hs, hq, elsewhere ha, ho, step_of (hist_of h0).reach ho⟩

/-- A query for the type, with an address as known answer. -/
def knows (type : Nat) (ip : List UInt8) : Msg :=
  { ask (nm 97) type with an := [⟨nm 97, 1, 1, 120, ip, .a ip⟩] }

/-- C32: the querier knows the record. -/
example : Queried quiet (trace quiet announced fresh).1 (trace quiet announced fresh).2 (at_ 110)
      (knows 1 [10, 0, 0, 1]) other (trace quiet [.recv (at_ 110) (knows 1 [10, 0, 0, 1]) other] (trace quiet announced fresh).2).2 ∧
    ((trace quiet announced fresh).2.c.recs 0).any (fun x => (knows 1 [10, 0, 0, 1]).an.any fun a => carries a x.rr) ∧
    (∃ q ∈ (knows 1 [10, 0, 0, 1]).qd, ((trace quiet announced fresh).2.c.recs 0).any fun x =>
      q.name = x.rr.name ∧ q.type = x.rr.type) :=
  ⟨queried_of (by decide +kernel) (by decide +kernel) (by decide +kernel) (by decide +kernel) rfl, by decide +kernel,
    by decide +kernel⟩

/-- C32: the querier knows another address. -/
example : Queried quiet (trace quiet announced fresh).1 (trace quiet announced fresh).2 (at_ 110)
      (knows 1 [10, 0, 0, 2]) other (trace quiet [.recv (at_ 110) (knows 1 [10, 0, 0, 2]) other] (trace quiet announced fresh).2).2 ∧
    (∃ k ∈ (trace quiet announced fresh).1, k.1.sets 0 = true) ∧
    0 ∉ (trace quiet announced fresh).2.q.walk .probing ∧ 0 ∉ (trace quiet announced fresh).2.q.walk .publish ∧
    ((trace quiet announced fresh).2.c.recs 0).any (fun x => (knows 1 [10, 0, 0, 2]).an.all fun a => !carries a x.rr) :=
  ⟨queried_of (by decide +kernel) (by decide +kernel) (by decide +kernel) (by decide +kernel) rfl, by decide +kernel,
    by decide +kernel, by decide +kernel, by decide +kernel⟩

/-- A record that is being probed and was not set. -/
def claimed : List Op := [.shared (nm 98) 1 120, .unique (nm 97) 1 120 (some 1)]

/-- Whether the record is being probed and was not set. -/
def unsetB (d : D Ptrs) (r : Nat) : Bool :=
  (d.q.walk .probing).contains r && (d.c.recs r).any fun x => !x.modified

theorem unset_of {d : D Ptrs} {r : Nat} (h : unsetB d r = true) : ∃ x : Rec, x.Unset d r := by
  unfold unsetB at h
  rw [Bool.and_eq_true, List.contains_iff_mem] at h
  cases hx : d.c.recs r with
  | none => rw [hx] at h; cases h.2
  | some x =>
    rw [hx] at h
    exact ⟨x, hx, h.1, by simpa using h.2⟩

/-- Whether the packet claims the name of the record. -/
def claimsB (d : D Ptrs) (r : Nat) (m : Msg) : Bool :=
  (d.c.recs r).any fun x => m.qd.any fun q => q.cls == d.c.cls && x.rr.name == q.name &&
    (q.type == x.rr.type || q.type == 255) && q.name != discoName &&
    m.an.any fun a => a.name == q.name && a.type == q.type && !carries a x.rr

theorem claims_of {d : D Ptrs} {r : Nat} {m : Msg} {x : Rec} (hx : d.c.recs r = some x) (h : claimsB d r m = true) :
    Claims d.c.cls m x := by
  unfold claimsB at h
  rw [hx] at h
  simp only [Option.any_some, List.any_eq_true, Bool.and_eq_true, beq_iff_eq, Bool.or_eq_true, bne_iff_ne,
    Bool.not_eq_true'] at h
  obtain ⟨q, mq, ⟨⟨⟨h1, h2⟩, h3⟩, h4⟩, a, ma, ⟨h5, h6⟩, h7⟩ := h
  exact ⟨q, mq, ⟨h1, h2, h3⟩, h4, a, ma, h5, h6, h7⟩

/-- C36: another host has this name. -/
example : Queried quiet (trace quiet claimed fresh).1 (trace quiet claimed fresh).2 (at_ 100)
      (knows 1 [10, 0, 0, 2]) other (trace quiet [.recv (at_ 100) (knows 1 [10, 0, 0, 2]) other] (trace quiet claimed fresh).2).2 ∧
    (∃ x : Rec, x.Unset (trace quiet claimed fresh).2 1 ∧
      Claims (trace quiet claimed fresh).2.c.cls (knows 1 [10, 0, 0, 2]) x) := by
  refine ⟨queried_of (by decide +kernel) (by decide +kernel) (by decide +kernel) (by decide +kernel) rfl, ?_⟩
  obtain ⟨x, hx⟩ := unset_of (d := (trace quiet claimed fresh).2) (r := 1) (by decide +kernel)
  exact ⟨x, hx, claims_of hx.1 (by decide +kernel)⟩

/-- C37: the address was set. -/
example : Reach quiet (trace quiet [.setAddress ipA] fresh).2 ∧
    Own quiet (trace quiet [.setAddress ipA] fresh).2.c ⟨.v4 ipA, 5353⟩ :=
  ⟨(hist_of (by decide +kernel)).reach, .inl (by decide +kernel)⟩

/-- C37: the system reports the address. -/
example : Own ⟨fun _ => {}, fun n => some (if n = 0 then [.v4 ipA] else [.v4 #v[10, 0, 0, 2], .v4 ipA])⟩ fresh.c
    ⟨.v4 ipA, 5353⟩ := by
  refine .inr (.inr fun n => ⟨_, rfl, ?_⟩)
  by_cases h : n = 0 <;> simp [h]

end Sample

/-! ### Counterexamples -/

open Sample in
/-- C32: the querier lists the record as known and asks for type ANY; the record is queued
(`libmdnsd/mdnsd.c:1185` compares the type of the known answer with that of the question). -/
theorem C32_any_counterexample : ∃ h d d' now m, Queried quiet h d now m other d' ∧
    (d.c.recs 0).any (fun x => m.an.any fun a => carries a x.rr) ∧ (∀ w, 0 ∉ d.q.walk w) ∧ 0 ∈ d'.q.walk .pause :=
  ⟨_, _, _, at_ 110, knows 255 [10, 0, 0, 1], queried_of (ops := announced) (by decide +kernel) (by decide +kernel)
    (by decide +kernel) (by decide +kernel) rfl, by decide +kernel, fun w => by cases w <;> decide +kernel, by decide +kernel⟩

open Sample in
/-- C32: known answers are not looked at for `_services._dns-sd._udp.local.`
(`libmdnsd/mdnsd.c:1141-1150`). -/
theorem C32_discovery_counterexample : ∃ h d d' now m, Queried quiet h d now m other d' ∧
    (d.c.recs 0).any (fun x => m.an.any fun a => carries a x.rr) ∧ (∀ w, 0 ∉ d.q.walk w) ∧ 0 ∈ d'.q.walk .pause :=
  ⟨_, _, _, at_ 110, { ask discoName 12 with an := [⟨discoName, 12, 1, 120, [], .name (nm 97)⟩] },
    queried_of (ops := [.shared discoName 12 120, .setHost 0 (nm 97)] ++ every 101 4) (by decide +kernel)
    (by decide +kernel) (by decide +kernel) (by decide +kernel) rfl, by decide +kernel,
    fun w => by cases w <;> decide +kernel, by decide +kernel⟩

open Sample in
/-- C36: no conflict is reported when the data of the record was set: `mdnsd_set_ip` marks it as
modified, and then the check is skipped (`libmdnsd/mdnsd.c:1160`). -/
theorem C36_set_counterexample : ∃ h d d' now m x, Queried quiet h d now m other d' ∧ d.c.recs 0 = some x ∧
    0 ∈ d.q.walk .probing ∧ Claims d.c.cls m x ∧ d'.c.log = d.c.log ++ [.received ⟨nm 97, 1, 1, 120, [10, 0, 0, 2], .a [10, 0, 0, 2]⟩] ∧
      d'.c.recs 0 = some x ∧ 0 ∈ d'.q.walk .probing := by
  have hq := queried_of (ops := [.receiveCallback true, .unique (nm 97) 1 120 (some 1), .setIp 0 ipA]) (now := at_ 100)
    (m := knows 1 [10, 0, 0, 2]) (by decide +kernel) (by decide +kernel) (by decide +kernel) (by decide +kernel) rfl
  exact ⟨_, _, _, _, _, _, hq, rfl, by decide +kernel, claims_of (r := 0) rfl (by decide +kernel), by decide +kernel,
    by decide +kernel, by decide +kernel⟩

open Sample in
/-- C36: no conflict is reported for a probe as RFC 6762 wants it: a question of type ANY, and the
data in the authority section. -/
theorem C36_probe_counterexample : ∃ h d d' now m x, Queried quiet h d now m other d' ∧ x.Unset d 0 ∧
    m.qd = [⟨nm 97, 255, 1⟩] ∧ m.ns = [⟨nm 97, 1, 1, 120, [10, 0, 0, 2], .a [10, 0, 0, 2]⟩] ∧
    d'.c.log = d.c.log ∧ d'.c.recs 0 = some x := by
  have hq := queried_of (ops := [.unique (nm 97) 1 120 (some 1)]) (now := at_ 100)
    (m := { ask (nm 97) 255 with ns := [⟨nm 97, 1, 1, 120, [10, 0, 0, 2], .a [10, 0, 0, 2]⟩] })
    (by decide +kernel) (by decide +kernel) (by decide +kernel) (by decide +kernel) rfl
  obtain ⟨x, hx⟩ := unset_of (d := (trace quiet [.unique (nm 97) 1 120 (some 1)] fresh).2) (r := 0) (by decide +kernel)
  refine ⟨_, _, _, _, _, x, hq, hx, rfl, rfl, by decide +kernel, ?_⟩
  rw [← hx.1]
  decide +kernel

open Sample in
/-- C36: no conflict is reported for a response with other data, and one is reported, and the
record withdrawn, for a response with the same data (`libmdnsd/mdnsd.c:1224` has the comparison
the wrong way around). -/
theorem C36_response_counterexample : ∃ d d1 d2 a1 a2 src, Reach quiet d ∧ Elsewhere quiet d.c src ∧
    0 ∈ d.q.walk .probing ∧ (d.c.recs 0).any (fun x => x.rr.ip = ipA) ∧
    Mdns.step quiet (.recv (at_ 100) { knows 1 [10, 0, 0, 2] with header := { qr := true } } src) d = .ok (a1, d1) ∧
    conflictsOf 0 d1.c.log = 0 ∧ d1.c.recs 0 = d.c.recs 0 ∧
    Mdns.step quiet (.recv (at_ 100) { knows 1 [10, 0, 0, 1] with header := { qr := true } } src) d = .ok (a2, d2) ∧
    conflictsOf 0 d2.c.log = 1 ∧ d2.c.recs 0 = none := by
  have hr := (hist_of (ops := [.unique (nm 97) 1 120 (some 1), .setIp 0 ipA]) (by decide +kernel)).reach
  obtain ⟨a1, e1⟩ := step_of hr (o := .recv (at_ 100) { knows 1 [10, 0, 0, 2] with header := { qr := true } } other)
    (opSafeB_sound quiet_keeps (by decide +kernel))
  obtain ⟨a2, e2⟩ := step_of hr (o := .recv (at_ 100) { knows 1 [10, 0, 0, 1] with header := { qr := true } } other)
    (opSafeB_sound quiet_keeps (by decide +kernel))
  exact ⟨_, _, _, a1, a2, other, hr, elsewhere (by decide +kernel), by decide +kernel, by decide +kernel, e1,
    by decide +kernel, by decide +kernel, e2, by decide +kernel, by decide +kernel⟩

/-- The second address is new. -/
def Sample.later : Env := ⟨fun _ => {}, fun n => some (if n = 0 then [] else [.v4 #v[10, 0, 0, 9]])⟩

open Sample in
/-- C37: the system is asked for the addresses only every five seconds.  A packet from an address
that was added in between is taken for one of another host. -/
theorem C37_new_address_counterexample : ∃ (env : Env) (d d' : D Ptrs) (a : OpOut) (now : TV) (m : Msg) (src : Addr),
    Reach env d ∧ (∀ n, 1 ≤ n → env.ifaddrs n = some [src.ip]) ∧ d.c.nifs = 1 ∧
    Mdns.step env (.recv now m src) d = .ok (a, d') ∧ d.c.listed (nm 97) 12 = [] ∧ (d'.c.listed (nm 97) 12).length = 1 := by
  have hk : later.KeepOnExpiry := fun _ _ _ _ _ => rfl
  obtain ⟨a, e⟩ := step_of (.new (env := later) 1 1500 (at_ 100)) (o := .recv (at_ 101) (ptrMsg 0) lone)
    (opSafeB_sound hk (by decide +kernel))
  have hr := (Reach.new (env := later) 1 1500 (at_ 100)).step (opSafeB_sound hk (by decide +kernel)) e
  obtain ⟨a2, e2⟩ := step_of hr (o := .recv (at_ 104) (ptrMsg 10) other) (opSafeB_sound hk (by decide +kernel))
  refine ⟨later, _, _, a2, at_ 104, ptrMsg 10, other, hr, fun n h => ?_, by decide +kernel, e2, by decide +kernel,
    by decide +kernel⟩
  show some (if n = 0 then _ else _) = _
  rw [if_neg (by omega)]
  rfl

end Mdns
