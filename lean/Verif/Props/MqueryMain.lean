import Verif.Model.MqueryMain
import Verif.Props.Leaving
import Verif.Props.Sleep

/-!
# C75: `mquery` ends in time

`mquery -w SEC` is to end after SEC seconds, `mquery -T` two seconds after the last datagram.
-/

namespace Mdns.Mquery

/-! ### Specification -/

/-- A span of time in microseconds. -/
def span (t : TV) : Nat := t.sec * 1000000 + t.usec

/-- The seconds at which datagrams were taken in a round. -/
def taken (r : Round) : List Nat := (r.datagrams.takeWhile fun x => decide (x.2.data ≠ [])).map (·.1)

/-- The second of the last datagram taken. -/
def lastTaken (rs : List Round) : Option Nat := (rs.flatMap taken).getLast?

/-- Every round takes at most the time `select` may wait and `W` microseconds for all the rest; `t` is the time when the
first begins. -/
def Timely (W : Nat) : Nat → List (Round × TV) → Prop
  | _, [] => True
  | t, x :: h => x.1.over ≤ t + span x.2 + W ∧ Timely W x.1.over h

/-- What the datagrams leave in the buffer, and the second of the last. -/
def leaves : List (Nat × Datagram) → Kept → Kept
  | [], k => k
  | (t, g) :: rest, k => if g.data = [] then k else leaves rest ⟨received k.buf (g.data.take maxPacketLen), t⟩

/-- Parsing the datagrams in the receive buffer, one after another, never leaves the buffer. -/
def Within : List (Nat × Datagram) → Kept → Prop
  | [], _ => True
  | (t, g) :: rest, k =>
    let buf := received k.buf (g.data.take maxPacketLen)
    messageParse ⟨maxPacketLen, buf⟩ structCap ≠ .oob ∧ Within rest ⟨buf, t⟩

/-- The same for all datagrams of several rounds. -/
def WithinAll : List Round → Kept → Prop
  | [], _ => True
  | r :: rs, k => Within r.datagrams k ∧ WithinAll rs (leaves r.datagrams k)

/-- If the call hands over a message then this is what is made of a datagram in a receive buffer. -/
def Came (ds : List (Nat × Datagram)) : Op → Prop
  | .recv now m src => ∃ x ∈ ds, ∃ buf, x.2.data ≠ [] ∧ x.2.clock = now ∧ x.2.src = src ∧
      messageParse ⟨maxPacketLen, received buf (x.2.data.take maxPacketLen)⟩ structCap = .ok m
  | _ => True

/-! ### One round -/

theorem Came.mono {ds ds' : List (Nat × Datagram)} (h : ∀ x ∈ ds, x ∈ ds') {o : Op} (c : Came ds o) : Came ds' o := by
  cases o with
  | recv now m src =>
    obtain ⟨x, mx, buf, e⟩ := c
    exact ⟨x, h x mx, buf, e⟩
  | _ => trivial

theorem leaves_last : ∀ (ds : List (Nat × Datagram)) (k : Kept),
    (leaves ds k).lastRx = (((ds.takeWhile fun x => decide (x.2.data ≠ [])).map (·.1)).getLast?).getD k.lastRx
  | [], _ => rfl
  | (t, g) :: rest, k => by
    unfold leaves
    by_cases e : g.data = []
    · rw [if_pos e]
      simp [e]
    · rw [if_neg e, leaves_last rest]
      simp [e, List.getLast?_cons]

theorem takeIn_was {env : Env} {failed : Bool} : ∀ (ds : List (Nat × Datagram)) (k : Kept) {d d' : D Ptrs} {rc : Nat} {k' : Kept},
    Reach env d → takeIn env failed ds k d = .ok ((rc, k'), d') → k' = leaves ds k ∧ ∃ hs, Calls env d hs d' ∧
      packetsOf hs = [] ∧ ∀ c ∈ hs, c.1.ofStep = true ∧ Came ds c.1
  | [], k, d, d', rc, k', h, e => by
    cases e
    exact ⟨rfl, [], .nil, rfl, by intro _ m; cases m⟩
  | (t, g) :: rest, k, d, d', rc, k', h, e => by
    unfold takeIn at e
    unfold leaves
    by_cases e0 : g.data = []
    · rw [if_pos e0] at e ⊢
      cases e
      exact ⟨rfl, [], .nil, rfl, by intro _ m; cases m⟩
    · rw [if_neg e0] at e ⊢
      cases e1 : messageParse ⟨maxPacketLen, received k.buf (g.data.take maxPacketLen)⟩ structCap with
      | ok m =>
        rw [e1] at e
        obtain ⟨ret, d1, e2, n1⟩ := recv_call h e1 g.clock g.src
        dsimp only at e
        rw [M.bind_ok e2] at e
        obtain ⟨i1, hs, n2, p2, o2⟩ := takeIn_was rest _ (n1.reach h) e
        refine ⟨i1, _, n1.append n2, p2, ?_⟩
        intro c m
        rcases List.mem_append.mp m with m | m
        · cases List.mem_singleton.mp m
          exact ⟨rfl, _, List.mem_cons_self .., _, e0, rfl, rfl, e1⟩
        · exact ⟨(o2 c m).1, (o2 c m).2.mono fun x mx => List.mem_cons_of_mem _ mx⟩
      | fail =>
        rw [e1] at e
        obtain ⟨i1, hs, n2, p2, o2⟩ := takeIn_was rest _ h e
        exact ⟨i1, hs, n2, p2, fun c m => ⟨(o2 c m).1, (o2 c m).2.mono fun x mx => List.mem_cons_of_mem _ mx⟩⟩
      | oob => rw [e1] at e; cases e
      | wub => rw [e1] at e; cases e
      | hang => rw [e1] at e; cases e

theorem takeIn_ends {env : Env} {failed : Bool} : ∀ (ds : List (Nat × Datagram)) (k : Kept) {d : D Ptrs},
    Reach env d → Within ds k → ∃ rc k' d', takeIn env failed ds k d = .ok ((rc, k'), d')
  | [], k, d, h, _ => ⟨_, _, _, rfl⟩
  | (t, g) :: rest, k, d, h, ⟨w1, w2⟩ => by
    unfold takeIn
    by_cases e0 : g.data = []
    · rw [if_pos e0]
      exact ⟨_, _, _, rfl⟩
    · rw [if_neg e0]
      cases e1 : messageParse ⟨maxPacketLen, received k.buf (g.data.take maxPacketLen)⟩ structCap with
      | ok m =>
        obtain ⟨ret, d1, e2, n1⟩ := recv_call h e1 g.clock g.src
        dsimp only
        rw [M.bind_ok e2]
        exact takeIn_ends rest _ (n1.reach h) w2
      | fail => exact takeIn_ends rest _ h w2
      | oob => exact absurd e1 w1
      | wub => exact absurd e1 (C05_parse_writes_inside _)
      | hang => exact absurd e1 (C04_parse_terminates _)

theorem sleep_call {env : Env} {d : D Ptrs} (h : Reach env d) (now : TV) :
    ∃ t d', Mdns.sleep now d = .ok (t, d') ∧ Calls env d [(.sleep now, .time t)] d' ∧ t.usec ≤ 1000000 := by
  obtain ⟨l, hr⟩ := h.rep
  obtain ⟨a, d', _, e, _, _⟩ := hr.step (.sleep now) trivial
  have e0 : (Mdns.sleep now >>= fun t => pure (OpOut.time t)) d = .ok (a, d') := e
  cases e1 : Mdns.sleep now d with
  | ok p =>
    obtain ⟨t, d1⟩ := p
    rw [M.bind_ok e1] at e0
    cases e0
    refine ⟨t, _, rfl, .just (o := .sleep now) trivial e, ?_⟩
    have hd := h.did (o := .sleep now) trivial e
    generalize d'.c = c', d'.lists = l' at hd
    cases hd with
    | sleep n => cases n <;> first | exact rounded_usec _ | exact Nat.zero_le _
  | ub => simp only [Bind.bind, e1] at e0; cases e0
  | hang => simp only [Bind.bind, e1] at e0; cases e0

theorem timeout_span {o : Opts} {t : TV} (ht : o.terminate = true) (h : t.usec ≤ 1000000) : span (timeout o t) ≤ 1000000 := by
  unfold timeout span
  rw [ht]
  split
  · exact Nat.le_refl _
  · rename_i hn
    simp at hn
    rw [hn]
    omega

theorem round_was {env : Env} (hk : env.KeepOnExpiry) {o : Opts} {start fuel : Nat} {r : Round} {k k' : Kept} {d d' : D Ptrs}
    {v : Verdict} {tv : TV} {ms : List (Out × Addr)} (h : Reach env d)
    (e : round env o start fuel r k d = .ok ((v, tv, ms, k'), d')) :
    k' = leaves r.datagrams k ∧ (o.terminate = true → span tv ≤ 1000000) ∧
      (v = .go → ended o start k'.lastRx r.over = false) ∧ (v = .done → ended o start k'.lastRx r.over = true) ∧
      ∃ hs, Calls env d hs d' ∧ packetsOf hs = ms ∧ ∀ c ∈ hs, c.1.ofStep = true ∧ Came r.datagrams c.1 := by
  unfold round at e
  obtain ⟨t, d1, e1, n1, ht⟩ := sleep_call h r.sleepAt
  rw [M.bind_ok e1] at e
  have h1 := n1.reach h
  cases e2 : takeIn env r.failed r.datagrams k d1 with
  | ub => rw [M.bind_ub e2] at e; cases e
  | hang => rw [M.bind_hang e2] at e; cases e
  | ok p =>
    obtain ⟨⟨rc, k1⟩, d2⟩ := p
    rw [M.bind_ok e2] at e
    obtain ⟨i1, hs2, n2, p2, o2⟩ := takeIn_was _ _ h1 e2
    have h2 := n2.reach h1
    dsimp only at e
    have step1 : ∀ c ∈ [((.sleep r.sleepAt, .time t) : Call)], c.1.ofStep = true ∧ Came r.datagrams c.1 := by
      intro c m
      cases List.mem_singleton.mp m
      exact ⟨rfl, trivial⟩
    split at e
    · cases e
      refine ⟨i1, fun hT => timeout_span hT ht, by simp, by simp, _, n1.append n2, ?_, ?_⟩
      · unfold packetsOf at *
        rw [List.filterMap_append, p2]
        rfl
      · intro c m
        rcases List.mem_append.mp m with m | m
        · exact step1 c m
        · exact o2 c m
    · cases e3 : processOut env r.clock r.accepted fuel 0 d2 with
      | ub => rw [M.bind_ub e3] at e; cases e
      | hang => rw [M.bind_hang e3] at e; cases e
      | ok p =>
        obtain ⟨⟨rc3, ms3⟩, d3⟩ := p
        rw [M.bind_ok e3] at e
        cases e
        obtain ⟨hs3, n3, p3, o3, _⟩ := processOut_sends hk _ _ h2 e3
        refine ⟨i1, fun hT => timeout_span hT ht, ?_, ?_, _, n1.append (n2.append n3), ?_, ?_⟩
        · split
          · simp
          · split <;> simp_all
        · split
          · simp
          · split <;> simp_all
        · unfold packetsOf at *
          rw [List.filterMap_append, List.filterMap_append, p2, p3]
          rfl
        · intro c m
          rcases List.mem_append.mp m with m | m
          · exact step1 c m
          · rcases List.mem_append.mp m with m | m
            · exact o2 c m
            · obtain ⟨t, ht⟩ := o3 c m
              rw [ht]
              exact ⟨rfl, trivial⟩

theorem round_ends {env : Env} (hk : env.KeepOnExpiry) {o : Opts} {start : Nat} {r : Round} {k : Kept} {d : D Ptrs}
    (h : Reach env d) (hw : Within r.datagrams k) (hc : ∀ j, (r.clock j).sec ≤ (r.clock (j + 1)).sec) :
    ∃ N v tv ms k' d', ∀ fuel, N ≤ fuel → round env o start fuel r k d = .ok ((v, tv, ms, k'), d') := by
  obtain ⟨t, d1, e1, n1, ht⟩ := sleep_call h r.sleepAt
  have h1 := n1.reach h
  obtain ⟨rc, k1, d2, e2⟩ := takeIn_ends (failed := r.failed) r.datagrams k h1 hw
  obtain ⟨_, hs2, n2, _⟩ := takeIn_was _ _ h1 e2
  obtain ⟨N, rc3, ms, _, d3, e3, _⟩ := C61_out_ends_partial hk (n2.reach h1) hc r.accepted
  by_cases e0 : rc = 0
  · refine ⟨N, if rc3 ≠ 0 then .error else if ended o start k1.lastRx r.over then .done else .go, timeout o t, ms, k1, d3, fun fuel hf => ?_⟩
    unfold round
    rw [M.bind_ok e1, M.bind_ok e2]
    dsimp only
    rw [if_neg (by simpa using e0), M.bind_ok (e3 fuel hf)]
    rfl
  · refine ⟨0, .error, timeout o t, [], k1, d2, fun fuel hf => ?_⟩
    unfold round
    rw [M.bind_ok e1, M.bind_ok e2]
    dsimp only
    rw [if_pos (by simpa using e0)]
    rfl

/-! ### All rounds -/

theorem rounds_cons {env : Env} {o : Opts} {start fuel : Nat} {r : Round} {rs : List Round} {k k' : Kept} {d d' : D Ptrs}
    {v : Verdict} {tvs : List TV} (e : rounds env o start fuel (r :: rs) k d = .ok ((v, tvs, k'), d')) :
    ∃ v1 tv ms k1 d1, round env o start fuel r k d = .ok ((v1, tv, ms, k1), d1) ∧
      ((v1 = .go ∧ ∃ tvs', rounds env o start fuel rs k1 d1 = .ok ((v, tvs', k'), d') ∧ tvs = tv :: tvs') ∨
        (v1 ≠ .go ∧ v = v1 ∧ tvs = [tv] ∧ k' = k1 ∧ d' = d1)) := by
  unfold rounds at e
  cases e1 : round env o start fuel r k d with
  | ub => rw [M.bind_ub e1] at e; cases e
  | hang => rw [M.bind_hang e1] at e; cases e
  | ok p =>
    obtain ⟨⟨v1, tv, ms, k1⟩, d1⟩ := p
    refine ⟨v1, tv, ms, k1, d1, rfl, ?_⟩
    rw [M.bind_ok e1] at e
    dsimp only at e
    split at e
    · rename_i hv
      cases e2 : rounds env o start fuel rs k1 d1 with
      | ub => rw [M.bind_ub e2] at e; cases e
      | hang => rw [M.bind_hang e2] at e; cases e
      | ok p =>
        obtain ⟨⟨v2, tvs2, k2⟩, d2⟩ := p
        rw [M.bind_ok e2] at e
        cases e
        exact .inl ⟨hv, _, rfl, rfl⟩
    · rename_i hv
      cases e
      exact .inr ⟨hv, rfl, rfl, rfl, rfl⟩

/-- Everything the loop does is calls of the library, so that what is proved about those holds for it. -/
theorem rounds_was {env : Env} (hk : env.KeepOnExpiry) {o : Opts} {start fuel : Nat} :
    ∀ (rs : List Round) {k k' : Kept} {d d' : D Ptrs} {v : Verdict} {tvs : List TV}, Reach env d →
      rounds env o start fuel rs k d = .ok ((v, tvs, k'), d') →
      (∃ hs, Calls env d hs d' ∧ ∀ c ∈ hs, c.1.ofStep = true ∧ Came (rs.flatMap (·.datagrams)) c.1) ∧ tvs.length ≤ rs.length ∧
        k'.lastRx = (lastTaken (rs.take tvs.length)).getD k.lastRx ∧ (v = .go → tvs.length = rs.length ∧
          ∀ r, rs.getLast? = some r → ended o start k'.lastRx r.over = false) ∧
        (v = .done → ∃ r, (rs.take tvs.length).getLast? = some r ∧ ended o start k'.lastRx r.over = true)
  | [], k, k', d, d', v, tvs, h, e => by
    cases e
    exact ⟨⟨[], .nil, by intro _ m; cases m⟩, Nat.le_refl _, rfl, fun _ => ⟨rfl, by simp⟩, by simp⟩
  | r :: rs, k, k', d, d', v, tvs, h, e => by
    obtain ⟨v1, tv, ms, k1, d1, e1, hcase⟩ := rounds_cons e
    obtain ⟨i1, _, i3, i4, hs, n, _, o1⟩ := round_was hk h e1
    have hl1 : k1.lastRx = ((taken r).getLast?).getD k.lastRx := by rw [i1, leaves_last]; rfl
    rcases hcase with ⟨hv1, tvs', e2, rfl⟩ | ⟨hv, rfl, rfl, rfl, rfl⟩
    · obtain ⟨⟨hs2, n2, o2⟩, j1, j2, j3, j4⟩ := rounds_was hk rs (n.reach h) e2
      refine ⟨⟨_, n.append n2, ?_⟩, by simpa using j1, ?_, ?_, ?_⟩
      · intro c m
        rcases List.mem_append.mp m with m | m
        · exact ⟨(o1 c m).1, (o1 c m).2.mono fun x mx => List.mem_append_left _ mx⟩
        · exact ⟨(o2 c m).1, (o2 c m).2.mono fun x mx => List.mem_append_right _ mx⟩
      · rw [j2, hl1]
        unfold lastTaken
        simp only [List.length_cons, List.take_succ_cons, List.flatMap_cons, List.getLast?_append]
        cases ((rs.take tvs'.length).flatMap taken).getLast? <;> rfl
      · intro hv
        refine ⟨by simpa using (j3 hv).1, fun r' hr => ?_⟩
        cases rs with
        | nil =>
          cases hr
          cases e2
          exact i3 hv1
        | cons r2 rs => exact (j3 hv).2 r' (by simpa [List.getLast?_cons_cons] using hr)
      · intro hv
        obtain ⟨r', hr, he⟩ := j4 hv
        refine ⟨r', ?_, he⟩
        simp [List.take_succ_cons, List.getLast?_cons, hr]
    · refine ⟨⟨hs, n, fun c m => ⟨(o1 c m).1, (o1 c m).2.mono fun x mx => List.mem_append_left _ mx⟩⟩, by simp, ?_, fun h => absurd h hv, fun h => ⟨r, by simp, i4 h⟩⟩
      rw [hl1]
      simp [lastTaken]

/-- `mquery -T -w SEC` (partial): every round is over SEC seconds after the start, and a second and the time `W` a round needs;
`begin` is the time, in microseconds, when the loop is entered and `start` its second. Missing: without `-T`, see
`C75_sleeps_counterexample`. -/
theorem C75_waits_partial {env : Env} (hk : env.KeepOnExpiry) {o : Opts} {start fuel W begin : Nat} (ht : o.terminate = true)
    (hw : 1 ≤ o.wait) {rs : List Round} {k k' : Kept} {d d' : D Ptrs} {v : Verdict} {tvs : List TV} (h : Reach env d)
    (e : rounds env o start fuel rs k d = .ok ((v, tvs, k'), d')) (hb : begin / 1000000 = start)
    (tm : Timely W begin (rs.zip tvs)) :
    ∀ x ∈ rs.zip tvs, (x.1.over : Int) ≤ (start + o.wait + 1) * 1000000 + W := by
  have hb' : (begin : Int) < (start + o.wait) * 1000000 := by
    omega
  clear hb
  induction rs generalizing begin k d tvs with
  | nil => intro x m; simp at m
  | cons r rs ih =>
    obtain ⟨v1, tv, ms, k1, d1, e1, hcase⟩ := rounds_cons e
    obtain ⟨i1, i2, i3, _, hs, n, _⟩ := round_was hk h e1
    have := i2 ht
    rcases hcase with ⟨hv, tvs', e2, rfl⟩ | ⟨hv, rfl, rfl, rfl, rfl⟩
    · obtain ⟨t1, t2⟩ := tm
      dsimp only at t1 t2
      intro x m
      rcases List.mem_cons.mp m with rfl | m
      · dsimp only
        omega
      · refine ih (n.reach h) e2 t2 ?_ x m
        have hn := i3 hv
        unfold ended at hn
        simp only [Bool.or_eq_false_iff, Bool.and_eq_false_iff] at hn
        obtain ⟨_, hn⟩ := hn
        have : o.wait ≠ 0 := by omega
        simp [this] at hn
        omega
    · obtain ⟨t1, _⟩ := tm
      dsimp only at t1
      intro x m
      simp at m
      subst m
      dsimp only
      omega

theorem rounds_append {env : Env} {o : Opts} {start fuel : Nat} : ∀ (rs1 rs2 : List Round) {k k' : Kept} {d d' : D Ptrs}
    {v : Verdict} {tvs : List TV}, rounds env o start fuel (rs1 ++ rs2) k d = .ok ((v, tvs, k'), d') →
    ∃ v1 tvs1 k1 d1, rounds env o start fuel rs1 k d = .ok ((v1, tvs1, k1), d1) ∧
      ((v1 = .go ∧ ∃ tvs2, rounds env o start fuel rs2 k1 d1 = .ok ((v, tvs2, k'), d') ∧ tvs = tvs1 ++ tvs2) ∨
        (v1 ≠ .go ∧ tvs = tvs1))
  | [], rs2, k, k', d, d', v, tvs, e => ⟨.go, [], k, d, rfl, .inl ⟨rfl, tvs, e, rfl⟩⟩
  | r :: rs1, rs2, k, k', d, d', v, tvs, e => by
    obtain ⟨v1, tv, ms, k1, d1, e1, hcase⟩ := rounds_cons e
    rcases hcase with ⟨rfl, tvs', e2, rfl⟩ | ⟨hv, rfl, rfl, rfl, rfl⟩
    · obtain ⟨v2, tvs2, k2, d2, e3, hcase⟩ := rounds_append rs1 rs2 e2
      refine ⟨v2, tv :: tvs2, k2, d2, ?_, ?_⟩
      · unfold rounds
        rw [M.bind_ok e1]
        dsimp only
        rw [if_pos rfl, M.bind_ok e3]
        rfl
      · rcases hcase with ⟨h1, tvs3, h2, rfl⟩ | ⟨h1, rfl⟩
        · exact .inl ⟨h1, tvs3, h2, rfl⟩
        · exact .inr ⟨h1, rfl⟩
    · refine ⟨v, [tv], k', d', ?_, .inr ⟨hv, rfl⟩⟩
      unfold rounds
      rw [M.bind_ok e1]
      dsimp only
      rw [if_neg hv]
      rfl

theorem Timely.tail {W : Nat} : ∀ {t : Nat} {xs ys : List (Round × TV)}, Timely W t (xs ++ ys) →
    Timely W ((xs.getLast?.map fun x => x.1.over).getD t) ys
  | _, [], _, h => h
  | t, x :: xs, ys, h => by
    have := Timely.tail h.2
    rw [List.getLast?_cons]
    cases hl : xs.getLast? with
    | none => rw [hl] at this; exact this
    | some y => rw [hl] at this; exact this

theorem quiet_go {env : Env} (hk : env.KeepOnExpiry) {o : Opts} {start fuel W begin t : Nat} (ht : o.terminate = true) (hn : t ≠ 0)
    {rs : List Round} {k k' : Kept} {d d' : D Ptrs} {v : Verdict} {tvs : List TV} (h : Reach env d) (hl : k.lastRx = t)
    (e : rounds env o start fuel rs k d = .ok ((v, tvs, k'), d')) (hq : ∀ r ∈ rs, taken r = [])
    (hb : begin < (t + 2) * 1000000) (tm : Timely W begin (rs.zip tvs)) :
    ∀ x ∈ rs.zip tvs, x.1.over ≤ (t + 3) * 1000000 + W := by
  induction rs generalizing begin k d tvs with
  | nil => intro x m; simp at m
  | cons r rs ih =>
    obtain ⟨v1, tv, ms, k2, d2, e1, hcase⟩ := rounds_cons e
    obtain ⟨i1, i2, i3, _, hs, n, _⟩ := round_was hk h e1
    have := i2 ht
    have hl2 : k2.lastRx = t := by
      rw [i1, leaves_last]
      have := hq r (by simp)
      unfold taken at this
      rw [this]
      exact hl
    rcases hcase with ⟨hv, tvs', e2, rfl⟩ | ⟨hv, rfl, rfl, rfl, rfl⟩
    · obtain ⟨t1, t2⟩ := tm
      dsimp only at t1 t2
      intro x m
      rcases List.mem_cons.mp m with rfl | m
      · dsimp only
        omega
      · refine ih (n.reach h) hl2 e2 (fun r m => hq r (by simp [m])) ?_ t2 x m
        have he := i3 hv
        unfold ended at he
        rw [ht, hl2] at he
        simp [hn] at he
        omega
    · obtain ⟨t1, _⟩ := tm
      dsimp only at t1
      intro x m
      simp at m
      subst m
      dsimp only
      omega

/-- `mquery -T` (partial): when no datagram comes any more after second `t`, every further round is over at the end of second
`t + 2`, and a second later at most with the time `W` a round needs. Missing: if nothing is ever received it does not end, see
`C75_silent_counterexample`. -/
theorem C75_quiet_partial {env : Env} (hk : env.KeepOnExpiry) {o : Opts} {start fuel W begin t : Nat} (ht : o.terminate = true)
    {rs1 rs2 : List Round} {k k' : Kept} {d d' : D Ptrs} {v : Verdict} {tvs : List TV} (h : Reach env d)
    (e : rounds env o start fuel (rs1 ++ rs2) k d = .ok ((v, tvs, k'), d')) (hl : lastTaken rs1 = some t) (hn : t ≠ 0)
    (hq : ∀ r ∈ rs2, taken r = []) (tm : Timely W begin ((rs1 ++ rs2).zip tvs)) :
    ∀ x ∈ ((rs1 ++ rs2).zip tvs).drop rs1.length, x.1.over ≤ (t + 3) * 1000000 + W := by
  obtain ⟨v1, tvs1, k1, d1, e1, hcase⟩ := rounds_append rs1 rs2 e
  obtain ⟨⟨hs, n, _⟩, j1, j2, j3, _⟩ := rounds_was hk rs1 h e1
  rcases hcase with ⟨hv, tvs2, e2, rfl⟩ | ⟨hv, rfl⟩
  · obtain ⟨jl, jr⟩ := j3 hv
    rw [List.zip_append jl.symm] at tm ⊢
    have hz : (rs1.zip tvs1).length = rs1.length := by simp [List.length_zip, jl]
    rw [List.drop_append_of_le_length (by omega), List.drop_of_length_le (by omega), List.nil_append]
    have tm := tm.tail
    rw [List.take_of_length_le (by omega), hl] at j2
    have j2 : k1.lastRx = t := j2
    cases hr : rs1.getLast? with
    | none =>
      rw [List.getLast?_eq_none_iff.mp hr] at hl
      cases hl
    | some r =>
      have he := jr r hr
      have hx : ((rs1.zip tvs1).getLast?.map fun x => x.1.over) = some r.over := by
        have : (rs1.zip tvs1).map (·.1) = rs1 := List.map_fst_zip (by omega)
        rw [← this, List.getLast?_map] at hr
        cases hy : (rs1.zip tvs1).getLast? with
        | none => rw [hy] at hr; cases hr
        | some y => rw [hy] at hr; cases hr; rfl
      rw [hx] at tm
      have tm : Timely W r.over (rs2.zip tvs2) := tm
      have hb : r.over < (t + 2) * 1000000 := by
        unfold ended at he
        rw [ht, j2] at he
        simp [hn] at he
        omega
      exact quiet_go hk ht hn (n.reach h) j2 e2 hq hb tm
  · intro x m
    have : (((rs1 ++ rs2).zip tvs).drop rs1.length) = [] := by
      apply List.drop_of_length_le
      rw [List.length_zip]
      omega
    rw [this] at m
    cases m

/-- `mquery` does not end early: when it ends by itself then SEC seconds have passed with `-w SEC`, or with `-T` a datagram
was received and for at least one whole second none. -/
theorem C75_not_early {env : Env} (hk : env.KeepOnExpiry) {o : Opts} {start fuel : Nat} {rs : List Round} {k k' : Kept}
    {d d' : D Ptrs} {tvs : List TV} (h : Reach env d) (h0 : k.lastRx = 0)
    (e : rounds env o start fuel rs k d = .ok ((.done, tvs, k'), d')) :
    ∃ r, (rs.take tvs.length).getLast? = some r ∧
      ((o.wait ≠ 0 ∧ start + o.wait ≤ (r.over / 1000000 : Nat)) ∨
        (o.terminate = true ∧ ∃ t, lastTaken (rs.take tvs.length) = some t ∧ t + 2 ≤ r.over / 1000000)) := by
  obtain ⟨_, _, j2, _, j4⟩ := rounds_was hk rs h e
  obtain ⟨r, hr, he⟩ := j4 rfl
  refine ⟨r, hr, ?_⟩
  unfold ended at he
  simp only [Bool.or_eq_true, Bool.and_eq_true, bne_iff_ne, decide_eq_true_eq] at he
  rcases he with ⟨⟨h1, h2⟩, h3⟩ | ⟨h1, h2⟩
  · refine .inr ⟨h1, ?_⟩
    cases hl : lastTaken (rs.take tvs.length) with
    | none => rw [hl, h0] at j2; exact absurd j2 h2
    | some t =>
      rw [hl] at j2
      have j2 : k'.lastRx = t := j2
      exact ⟨t, rfl, by omega⟩
  · exact .inl ⟨h1, by omega⟩

theorem rounds_end {env : Env} (hk : env.KeepOnExpiry) {o : Opts} {start : Nat} : ∀ (rs : List Round) {k : Kept} {d : D Ptrs},
    Reach env d → WithinAll rs k → (∀ r ∈ rs, ∀ j, (r.clock j).sec ≤ (r.clock (j + 1)).sec) →
    ∃ N v tvs k' d', ∀ fuel, N ≤ fuel → rounds env o start fuel rs k d = .ok ((v, tvs, k'), d')
  | [], k, d, _, _, _ => ⟨0, .go, [], k, d, fun _ _ => rfl⟩
  | r :: rs, k, d, h, ⟨w1, w2⟩, hc => by
    obtain ⟨N, v, tv, ms, k1, d1, e1⟩ := round_ends hk (o := o) (start := start) h w1 (hc r (by simp))
    obtain ⟨i1, _, _, _, hs, n, _⟩ := round_was hk h (e1 N (Nat.le_refl _))
    by_cases hv : v = .go
    · obtain ⟨N2, v2, tvs, k2, d2, e2⟩ := rounds_end hk rs (n.reach h) (i1 ▸ w2) fun r m => hc r (by simp [m])
      refine ⟨max N N2, v2, tv :: tvs, k2, d2, fun fuel hf => ?_⟩
      unfold rounds
      rw [M.bind_ok (e1 fuel (by omega))]
      dsimp only
      rw [if_pos hv, M.bind_ok (e2 fuel (by omega))]
      rfl
    · refine ⟨N, v, [tv], k1, d1, fun fuel hf => ?_⟩
      unfold rounds
      rw [M.bind_ok (e1 fuel hf)]
      dsimp only
      rw [if_neg hv]
      rfl

/-- With `-w SEC` the loop ends when time goes on, whatever is received, as long as the parser stays in the receive buffer. -/
theorem C75_ends_partial {env : Env} (hk : env.KeepOnExpiry) {o : Opts} {start : Nat} (hw : o.wait ≠ 0) {k : Kept} {d : D Ptrs}
    (h : Reach env d) (r : Nat → Round) (hin : ∀ n, WithinAll ((List.range n).map r) k)
    (hc : ∀ n j, ((r n).clock j).sec ≤ ((r n).clock (j + 1)).sec) (adv : ∀ T, ∃ n, T ≤ (r n).over) :
    ∃ n N v tvs k' d', v ≠ .go ∧ ∀ fuel, N ≤ fuel → rounds env o start fuel ((List.range n).map r) k d = .ok ((v, tvs, k'), d') := by
  obtain ⟨n, hn⟩ := adv ((start + o.wait).toNat * 1000000)
  obtain ⟨N, v, tvs, k', d', e⟩ := rounds_end hk (o := o) (start := start) ((List.range (n + 1)).map r) h (hin _) (by
    intro r' m j
    obtain ⟨i, _, rfl⟩ := List.mem_map.mp m
    exact hc i j)
  refine ⟨n + 1, N, v, tvs, k', d', fun hv => ?_, e⟩
  obtain ⟨_, _, _, j3, _⟩ := rounds_was hk _ h (e N (Nat.le_refl _))
  have he := (j3 hv).2 (r n) (by simp [List.range_succ])
  unfold ended at he
  simp [hw] at he
  omega

/-! ### What is left -/

/-- No records are made. -/
theorem Calls.bare {env : Env} {d d' : D Ptrs} {h : List Call} (n : Calls env d h d') (hr : Reach env d)
    (hs : ∀ c ∈ h, c.1.ofStep = true) (h0 : ∀ r, d.c.recs r = none) : ∀ r, d'.c.recs r = none := by
  induction n with
  | nil => exact h0
  | @snoc h d1 d2 o a n hsafe e ih =>
    have h1 := n.reach hr
    have hb := ih fun c m => hs c (by simp [m])
    have ho := hs (o, a) (by simp)
    intro r
    obtain ⟨ls, hst, _, hl⟩ := ((h1.did hsafe e).run h1.inv h1.uni).steps r
    have hn : Lab.new ∉ ls := by
      intro m
      have := hl _ m
      cases o <;> first | cases ho; done | (revert this; simp [Op.may, recvLab, sendLab])
    have := (hst.none (view_none h1.inv.rinv (hb r)) hn).2
    exact congrArg View.x this

/-- When the loop has ended `mdnsd_shutdown` and `mdnsd_free`, `src/mquery.c:659-660`, free everything. -/
theorem C75_freed {env : Env} (hk : env.KeepOnExpiry) {o : Opts} {start fuel : Nat} {rs : List Round} {k k' : Kept}
    {d d' : D Ptrs} {v : Verdict} {tvs : List TV} (h : Reach env d) (h0 : ∀ r, d.c.recs r = none)
    (e : rounds env o start fuel rs k d = .ok ((v, tvs, k'), d')) :
    ∃ d1 d2, shutdown d' = .ok ((), d1) ∧ daemonFree d1 = .ok ((), d2) ∧ AllFreed d2 := by
  obtain ⟨⟨hs, n, ho⟩, _⟩ := rounds_was hk rs h e
  have hb := Calls.bare n h (fun c m => (ho c m).1) h0
  have h1 := n.reach h
  have safe : OpSafe env d'.c d'.q.walk .shutdown := by
    intro w _
    cases hw : d'.q.walk w with
    | nil => rfl
    | cons r l =>
      have := h1.inv.rinv.qlive w r (by show r ∈ d'.q.walk w; rw [hw]; simp)
      rw [hb r] at this
      cases this
  obtain ⟨d1, e1, n1, _⟩ := shutdown_call h1 safe
  obtain ⟨d2, e2, f2⟩ := C65_all_freed (n1.reach h1)
  exact ⟨d1, d2, e1, e2, f2⟩

/-- C75 is false in full: `mquery -T` never ends by itself if nothing is received. -/
theorem C75_silent_counterexample {env : Env} (hk : env.KeepOnExpiry) {start fuel : Nat} {rs : List Round} {k k' : Kept}
    {d d' : D Ptrs} {v : Verdict} {tvs : List TV} (h : Reach env d) (h0 : k.lastRx = 0) (hq : ∀ r ∈ rs, taken r = [])
    (e : rounds env { terminate := true } start fuel rs k d = .ok ((v, tvs, k'), d')) : v ≠ .done := by
  rintro rfl
  obtain ⟨r, _, h1 | ⟨_, t, h1, _⟩⟩ := C75_not_early hk h h0 e
  · exact h1.1 rfl
  · have : lastTaken (rs.take tvs.length) = none := by
      unfold lastTaken
      rw [List.flatMap_eq_nil_iff.mpr fun r m => hq r (List.mem_of_mem_take m)]
      rfl
    rw [this] at h1
    cases h1

/-! ### Sample -/

namespace Sample

open Mdns.Sample

/-- The daemon of `mquery a`, at second 100: the query has been asked for and nothing sent. -/
def asking : D Ptrs := (trace quiet [.query (nm 97) 12 (some 0)] (newD 1 1000 (at_ 100))).2

theorem asking_reach : Reach quiet asking := reach_of (by decide +kernel)

theorem asking_bare : ∀ r, asking.c.recs r = none := fun _ => rfl

/-- A round that begins at second `s` and ends at second `t`, with datagrams. -/
def rd (s t : Nat) (got : List (Nat × Datagram) := []) : Round :=
  { sleepAt := ⟨s, 0⟩, clock := fun _ => ⟨t, 0⟩, over := t * 1000000, datagrams := got }

/-- The empty buffer. -/
def blank : Kept := ⟨fun _ => 0, 0⟩

/-- The end of rounds and the times `select` was told to wait. -/
def gave (x : Res ((Verdict × List TV × Kept) × D Ptrs)) : Option (Verdict × List TV) :=
  match x with
  | .ok ((v, tvs, _), _) => some (v, tvs)
  | _ => none

theorem of_gave {x : Res ((Verdict × List TV × Kept) × D Ptrs)} {v : Verdict} {tvs : List TV} (h : gave x = some (v, tvs)) :
    ∃ k d, x = .ok ((v, tvs, k), d) := by
  unfold gave at h
  split at h
  · cases h
    exact ⟨_, _, rfl⟩
  · cases h

end Sample

open Mdns.Mquery.Sample Mdns.Sample

/-- C75 is false in full: `mquery -w 30 a` to which nobody answers ends after a day.  After four questions `mdnsd_sleep` says
that there is nothing to do for 86392 seconds, and `src/mquery.c:620-628` waits that long. -/
theorem C75_sleeps_counterexample : ∃ rs k k' d d' tvs, Reach quiet d ∧
    rounds quiet { wait := 30 } 100 5 rs k d = .ok ((.done, tvs, k'), d') ∧ Timely 0 100000000 (rs.zip tvs) ∧
    ∃ r, rs.getLast? = some r ∧ r.over = (100 + 86398) * 1000000 := by
  let rs := [rd 100 100, rd 100 101, rd 101 103, rd 103 106, rd 106 106, rd 106 86498]
  obtain ⟨k', d', e⟩ := of_gave (x := rounds quiet { wait := 30 } 100 5 rs blank asking) (v := .done)
    (tvs := [⟨0, 0⟩, ⟨1, 0⟩, ⟨2, 0⟩, ⟨3, 0⟩, ⟨0, 0⟩, ⟨86392, 0⟩]) (by decide +kernel)
  refine ⟨rs, blank, k', asking, d', _, asking_reach, e, ?_, rd 106 86498, rfl, rfl⟩
  simp [rs, Timely, span, rd]

/-- With `-T` added it ends after three seconds if asked to. -/
example : ∃ rs k k' d d' tvs, Reach quiet d ∧ quiet.KeepOnExpiry ∧ (∀ r, d.c.recs r = none) ∧
    rounds quiet { terminate := true, wait := 3 } 100 5 rs k d = .ok ((.done, tvs, k'), d') ∧ Timely 0 100000000 (rs.zip tvs) := by
  let rs := [rd 100 100, rd 100 101, rd 101 102, rd 102 103]
  obtain ⟨k', d', e⟩ := of_gave (x := rounds quiet { terminate := true, wait := 3 } 100 5 rs blank asking) (v := .done)
    (tvs := [⟨0, 0⟩, ⟨1, 0⟩, ⟨1, 0⟩, ⟨1, 0⟩]) (by decide +kernel)
  refine ⟨rs, blank, k', asking, d', _, asking_reach, quiet_keeps, asking_bare, e, ?_⟩
  simp [rs, Timely, span, rd]

/-- A datagram in second 101 ends `mquery -T` in second 103. -/
example : ∃ rs1 rs2 k k' d d' tvs, Reach quiet d ∧ lastTaken rs1 = some 101 ∧ (∀ r ∈ rs2, taken r = []) ∧ WithinAll (rs1 ++ rs2) k ∧
    rounds quiet { terminate := true } 100 5 (rs1 ++ rs2) k d = .ok ((.done, tvs, k'), d') ∧
    Timely 0 100000000 ((rs1 ++ rs2).zip tvs) := by
  let g : Datagram := ⟨⟨101, 0⟩, List.replicate 12 0, ⟨.v4 ip4Zero, 5353⟩⟩
  let rs1 := [rd 100 100, rd 100 101 [(101, g)]]
  let rs2 := [rd 101 102, rd 102 103]
  obtain ⟨k', d', e⟩ := of_gave (x := rounds quiet { terminate := true } 100 5 (rs1 ++ rs2) blank asking) (v := .done)
    (tvs := [⟨0, 0⟩, ⟨1, 0⟩, ⟨1, 0⟩, ⟨1, 0⟩]) (by decide +kernel)
  refine ⟨rs1, rs2, blank, k', asking, d', _, asking_reach, rfl, ?_, ?_, e, ?_⟩
  · intro r m
    simp only [rs2, List.mem_cons, List.not_mem_nil, or_false] at m
    rcases m with rfl | rfl <;> rfl
  · refine ⟨trivial, ⟨by decide +kernel, trivial⟩, trivial, trivial, trivial⟩
  · simp [rs1, rs2, Timely, span, rd]

end Mdns.Mquery
