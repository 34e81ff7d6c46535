import Verif.Model.Leave
import Verif.Props.Free
import Verif.Props.Prompt

/-!
# C72: goodbyes leave before the socket is closed
-/

namespace Mdns

/-! ### Specification -/

/-- The packets for everyone that have the record among their answers. -/
def tellingOf (r : Nat) (ms : List (Out × Addr)) : List (Out × Addr) :=
  ms.filter fun p => p.2.port == 5353 && p.1.tags.contains (Section.an, r)

/-- The record with lifetime 0. -/
def Rec.over (x : Rec) : Rec := { x with rr := { x.rr with ttl := 0 } }

/-! ### Proofs -/

/-- While every packet is taken, the loop ends well. -/
theorem processOut_taken {env : Env} {clock : Nat → TV} {accepted : Nat → Bool} (ha : ∀ k, accepted k = true) :
    ∀ (fuel k : Nat) {d d' : D Ptrs} {rc : Nat} {ms : List (Out × Addr)},
      processOut env clock accepted fuel k d = .ok ((rc, ms), d') → rc = 0
  | 0, _, _, _, _, _, e => by cases e
  | fuel + 1, k, d, d', rc, ms, e => by
    unfold processOut at e
    cases e1 : outMsg env (clock k) d with
    | ub => rw [M.bind_ub e1] at e; cases e
    | hang => rw [M.bind_hang e1] at e; cases e
    | ok p =>
      obtain ⟨⟨ret, m, to⟩, d1⟩ := p
      rw [M.bind_ok e1] at e
      simp only at e
      split at e
      · cases e; rfl
      · rw [if_pos (ha k)] at e
        cases e2 : processOut env clock accepted fuel (k + 1) d1 with
        | ub => rw [M.bind_ub e2] at e; cases e
        | hang => rw [M.bind_hang e2] at e; cases e
        | ok p =>
          obtain ⟨⟨rc2, ms2⟩, d2⟩ := p
          rw [M.bind_ok e2] at e
          cases e
          exact processOut_taken ha fuel (k + 1) e2

/-- A step with a packet with records is not one that made nothing. -/
theorem shows_sent {env : Env} {d d' : D Ptrs} (h : Reach env d) {now : TV} {ret : Nat} {m : Out} {to : Addr}
    (hs : OpSafe env d.c d.q.walk (.send now)) (e : Mdns.step env (.send now) d = .ok (.sent ret m to, d')) (h0 : ret = 0) :
    m.tags = [] := by
  have hd := h.did hs e
  generalize d'.c = c', d'.lists = l' at hd
  cases hd with
  | send n =>
    cases n.kind with
    | answers as _ _ ha hr => exact absurd (hr ▸ h0) (by simpa using ha)
    | probes rs _ _ hr0 hr => exact absurd (hr ▸ h0) (by simpa using hr0)
    | questions ht => exact ht
    | unicast _ _ _ _ _ hr => omega

/-- Counting packets is counting calls. -/
theorem shown_packets {env : Env} {d d' : D Ptrs} {h : List Call} (n : Calls env d h d') (hr : Reach env d)
    (hs : ∀ k ∈ h, ∃ t, k.1 = .send t) (r : Nat) : (tellingOf r (packetsOf h)).length = shown .an r h := by
  induction n with
  | nil => rfl
  | @snoc h d1 d2 o a n hso e ih =>
    have ih := ih fun k m => hs k (List.mem_append_left _ m)
    obtain ⟨t, rfl⟩ : ∃ t, o = .send t := hs (o, a) (by simp)
    have e1 : packetsOf (h ++ [(.send t, a)]) = packetsOf h ++ packetsOf [(.send t, a)] := by simp [packetsOf]
    rw [e1]
    unfold tellingOf shown at ih ⊢
    rw [List.filter_append, List.filter_append, List.length_append, List.length_append, ih]
    congr 1
    cases a with
    | sent ret m to =>
      by_cases h0 : ret = 0
      · have := shows_sent (n.reach hr) hso e h0
        simp [packetsOf, h0, Call.shows, OpOut.tags, this]
      · simp only [packetsOf, h0, List.filterMap_cons, List.filterMap_nil, if_false, List.filter_cons, List.filter_nil]
        by_cases hb : (to.port == 5353 && m.tags.contains (Section.an, r)) = true
        · rw [if_pos hb, if_pos (show Call.shows .an r (Op.send t, OpOut.sent ret m to) = true from hb)]
          rfl
        · rw [if_neg hb, if_neg (show ¬ Call.shows .an r (Op.send t, OpOut.sent ret m to) = true from hb)]
          rfl
    | _ => simp [packetsOf, Call.shows, OpOut.multi]

/-- What withdrawing does with the records. -/
theorem ByeL.recs {rs : List Nat} {c c' : Core} {l l' : Lists} (n : ByeL (fun _ => True) rs c l c' l') (hn : rs.Nodup) :
    c'.cls = c.cls ∧ c'.frame = c.frame ∧ c'.disco = c.disco ∧ c'.family = c.family ∧
      ∀ r, c'.recs r = if r ∈ rs then (c.recs r).map Rec.over else c.recs r := by
  induction n with
  | nil => exact ⟨rfl, rfl, rfl, rfl, fun r => by simp⟩
  | skip _ _ ht => exact absurd trivial ht
  | @bye r rs c c' l l' x h hx ht hq n ih =>
    rw [List.nodup_cons] at hn
    obtain ⟨i1, i2, i3, i5, i4⟩ := ih hn.2
    refine ⟨i1, i2, i3, i5, fun s => ?_⟩
    rw [i4]
    show (if s ∈ rs then ((upd c.recs r (some x.bye)) s).map Rec.over else upd c.recs r (some x.bye) s) = _
    by_cases hs : s = r
    · subst hs
      rw [if_neg hn.1, if_pos (List.mem_cons_self ..), upd_same, hx]
      rfl
    · rw [upd_other _ _ _ _ hs]
      simp [hs]

/-- Making packets leaves the records as they are or frees them. -/
theorem Calls.sendsKept {env : Env} {d d' : D Ptrs} {h : List Call} (n : Calls env d h d') (hr : Reach env d)
    (hs : ∀ k ∈ h, ∃ t, k.1 = .send t) : Kept d.c d'.c ∧ d'.c.family = d.c.family := by
  refine n.induct (P := fun _ c _ => Kept d.c c ∧ c.family = d.c.family) hr ⟨Kept.refl _, rfl⟩ ?_
  rintro h1 c l o a c' l' ⟨h2, e⟩ ⟨p1, p2⟩ _ _ _ hdid _
  obtain ⟨t, ho⟩ := hs (o, a) (by rw [e]; simp)
  cases ho
  cases hdid with
  | send n =>
    have k := n.kept
    have f := n.conf
    simp only [Core.conf, Prod.mk.injEq] at f
    refine ⟨⟨k.1.trans p1.1, fun r x hx => ?_⟩, f.2.2.trans p2⟩
    obtain ⟨x1, h1, h2, h3⟩ := k.2 r x hx
    obtain ⟨x0, h4, h5, h6⟩ := p1.2 r x1 h1
    exact ⟨x0, h4, h2.trans h5, h3.trans h6⟩

/-- Everything a series of packets says about a record. -/
theorem Calls.said {env : Env} {d d' : D Ptrs} {h : List Call} (n : Calls env d h d') (hr : Reach env d)
    (hs : ∀ k ∈ h, ∃ t, k.1 = .send t) {m : Out} {to : Addr} (hm : (m, to) ∈ packetsOf h) :
    (to.port = 5353 → to = mcast d.c.family) ∧
    ∀ (i : Nat) s r, m.tags[i]? = some (s, r) → ∃ x e, d.c.recs r = some x ∧ (entries m.ops)[i]? = some e ∧ e.sec = s ∧
      EntryOf d.c.cls x (decide (x.unique ≠ 0 ∧ (s = .ar ∨ (s = .an ∧ to.port = 5353)))) e := by
  obtain ⟨⟨o, a⟩, mk, hk⟩ := List.mem_filterMap.mp hm
  obtain ⟨t, ho⟩ := hs _ mk
  cases ho
  obtain ⟨pre, post, rfl⟩ := List.append_of_mem mk
  obtain ⟨d1, d2, n1, hso, e, _⟩ := Calls.at n
  obtain ⟨ret, rfl⟩ : ∃ ret, a = .sent ret m to := by
    cases a with
    | sent ret m' to' =>
      simp only at hk
      split at hk <;> cases hk
      exact ⟨_, rfl⟩
    | _ => cases hk
  have r1 := n1.reach hr
  obtain ⟨k, f⟩ := n1.sendsKept hr fun k m => hs k (List.mem_append_left _ m)
  have hd := r1.did hso e
  refine ⟨fun h5 => ?_, fun i s r ht => ?_⟩
  · generalize d2.c = c', d2.lists = l' at hd
    cases hd with
    | send n =>
      rw [← f]
      cases n.kind with
      | answers _ _ _ _ _ _ _ hto => exact hto
      | probes _ _ _ _ _ _ hto => exact hto
      | questions _ hto => exact hto
      | unicast u us xs hu _ _ _ hto =>
        exact absurd (hto ▸ h5) (r1.uni u (by
          have hu : d1.c.uanswers = u :: us := hu
          rw [hu]
          exact List.mem_cons_self ..))
  · have hne : m.tags ≠ [] := by
      intro e0
      rw [e0] at ht
      cases ht
    obtain ⟨hl, g⟩ := C59_entries r1 hso e hne
    have hi : i < (entries m.ops).length := by
      rw [hl]
      exact (List.getElem?_eq_some_iff.mp ht).1
    obtain ⟨x1, hx1, hsec, he⟩ := g i (s, r) _ ht (List.getElem?_eq_getElem hi)
    obtain ⟨x0, hx0, e1, e2⟩ := k.2 r x1 hx1
    refine ⟨x0, _, hx0, List.getElem?_eq_getElem hi, hsec, ?_⟩
    have e3 : (x1.unique ≠ 0) = (x0.unique ≠ 0) := propext (not_congr e2)
    simp only [e3] at he
    exact ⟨e1 ▸ he.name, e1 ▸ he.type, e1 ▸ he.ttl, k.1 ▸ he.cls, e1 ▸ he.data⟩

/-- What `mdnsd_shutdown` does. -/
theorem shutdown_call {env : Env} {d : D Ptrs} (h : Reach env d) (hs : OpSafe env d.c d.q.walk .shutdown) :
    ∃ d', shutdown d = .ok ((), d') ∧ Calls env d [(.shutdown, .unit)] d' ∧ d'.c.cls = d.c.cls ∧ d'.c.frame = d.c.frame ∧
      d'.c.disco = d.c.disco ∧ d'.c.family = d.c.family ∧ (∀ r, d'.c.recs r = (d.c.recs r).map Rec.over) ∧
      ∀ r, (d'.c.recs r).isSome → r ∈ d'.lists.q .now := by
  obtain ⟨l, hr⟩ := h.rep
  obtain ⟨a, d', _, e, _, _⟩ := hr.step .shutdown hs
  have e0 : (shutdown >>= fun _ => pure OpOut.unit) d = .ok (a, d') := e
  cases e1 : shutdown d with
  | ub => rw [M.bind_ub e1] at e0; cases e0
  | hang => rw [M.bind_hang e1] at e0; cases e0
  | ok p =>
    obtain ⟨_, d1⟩ := p
    rw [M.bind_ok e1] at e0
    cases e0
    have hd := h.did hs e
    have nd := h.inv.rinv
    refine ⟨_, rfl, .just hs e, ?_⟩
    generalize d'.c = c', d'.lists = l' at hd ⊢
    cases hd with
    | shutdown hq n =>
      cases n with
      | mk n =>
        obtain ⟨i1, i2, i3, i4, i5⟩ := n.recs nd.allNodup
        have hrec : ∀ r, _ = (d.c.recs r).map Rec.over := fun r => by
          refine (i5 r).trans ?_
          split
          · rfl
          · rename_i hn
            cases hx : d.c.recs r with
            | none => rfl
            | some x => exact absurd (nd.mem_all hx) hn
        refine ⟨i1, i2, i3, i4, hrec, fun r hx => ?_⟩
        have hx := (congrArg Option.isSome (hrec r)).symm.trans hx
        cases h0 : d.c.recs r with
        | none => rw [h0] at hx; cases hx
        | some x => exact (n.all.2 r (nd.mem_all h0)).1

theorem Rec.over_len (x : Rec) : rrLen x.over.rr = rrLen x.rr := rfl

/-- C72 (partial): the daemon gives up an interface that has a socket. Every record published on it
is in exactly one of the packets handed to the socket before it is closed that are for everyone,
these go to the multicast group, and wherever the record is in one of the packets it is there with
its name, type and data and lifetime 0. After that everything is freed. Needed: no record is being
probed or announced and no delayed answer waits (see `C43_shutdown_counterexample`), every record
fits a packet, the socket takes the packets and the clock does not go back. -/
theorem C72_goodbyes_partial {env : Env} (hk : env.KeepOnExpiry) {d : D Ptrs} (h : Reach env d)
    (settled : ∀ w, w ≠ .now → d.q.walk w = []) (plain : d.c.disco = false) (fits : FitsAlone d.c) (io : StepIo)
    (hc : ∀ k, (io.clock k).sec ≤ (io.clock (k + 1)).sec) (ha : ∀ k, io.accepted k = true) :
    ∃ N ms d', (∀ fuel, N ≤ fuel → leave env io true fuel d = .ok (ms, d')) ∧ AllFreed d' ∧
      ∀ r x, d.c.recs r = some x → (tellingOf r ms).length = 1 ∧ ∀ m to, (m, to) ∈ ms →
        (to.port = 5353 → to = mcast d.c.family) ∧
        ∀ (i : Nat) s, m.tags[i]? = some (s, r) → ∃ e, (entries m.ops)[i]? = some e ∧ e.sec = s ∧
          EntryOf d.c.cls x.over (decide (x.unique ≠ 0 ∧ (s = .ar ∨ (s = .an ∧ to.port = 5353)))) e := by
  obtain ⟨d1, e1, n1, c1, f1, p1, g1, r1, q1⟩ := shutdown_call h settled
  have h1 := n1.reach h
  have i1 := h1.inv.rinv
  obtain ⟨N, rc, ms, _, d2, hN, _⟩ := C61_out_ends_partial hk h1 hc io.accepted
  have e2 := hN N (Nat.le_refl _)
  have hrc : rc = 0 := processOut_taken ha _ _ e2
  subst hrc
  obtain ⟨hs, n2, pk, snd, g⟩ := processOut_sends hk _ _ h1 e2
  have h2 := n2.reach h1
  have h3 : Reach env { d2 with c := { d2.c with disco := false } } := h2.step (o := .stepEnd) (a := .unit) trivial rfl
  obtain ⟨d', e3, f3⟩ := C65_all_freed h3
  refine ⟨N, ms, d', fun fuel hf => ?_, f3, fun r x hx => ⟨?_, fun m to hm => ?_⟩⟩
  · unfold leave
    rw [M.bind_ok e1]
    have ef : farewell env io true fuel d1 = .ok (ms, { d2 with c := { d2.c with disco := false } }) := by
      unfold farewell
      rw [if_pos rfl]
      have : mdnsdStep env { io with input := false, output := true, wait := false } fuel d1 =
          .ok (⟨0, ms, none⟩, { d2 with c := { d2.c with disco := false } }) := by
        unfold mdnsdStep
        rw [M.bind_ok (show stepIn env _ d1 = .ok (0, d1) from rfl)]
        rw [M.bind_ok (show stepOut env _ fuel 0 d1 = .ok ((0, ms), d2) from by
          unfold stepOut
          rw [if_pos ⟨rfl, rfl⟩]
          exact hN fuel hf)]
        rfl
      rw [M.bind_ok this]
      rfl
    rw [M.bind_ok ef, M.bind_ok e3]
    rfl
  · have hy : d1.c.recs r = some x.over := by rw [r1, hx]; rfl
    have hq := q1 r (by rw [hy]; rfl)
    have np : ¬ x.over.Probing := by
      intro hp
      cases i1.disj _ _ _ hq ((i1.probing r _ hy).mpr hp)
    have hg : Gone 0 (view d1.c d1.lists r) := .inl ⟨_, hy, rfl, np, rfl⟩
    have hsz : r < d1.lists.size := i1.bound r (by rw [hy]; rfl)
    have hpos : 0 < shown .an r hs := by
      obtain ⟨c, mc, sc, _⟩ := g r (p1.trans plain) (by
        intro s y hy
        rw [r1] at hy
        cases hx0 : d.c.recs s with
        | none => rw [hx0] at hy; cases hy
        | some x0 =>
          rw [hx0] at hy
          cases hy
          rw [f1]
          exact fits s x0 hx0) rfl (.inl hq)
      exact List.length_pos_of_mem (List.mem_filter.mpr ⟨mc, sc⟩)
    rw [← pk, shown_packets n2 h1 snd]
    rcases n2.goodbye h1 hsz hg with ⟨_, _, _, _, h⟩ | ⟨_, h⟩ <;> omega
  · rw [← pk] at hm
    obtain ⟨a1, a2⟩ := n2.said h1 snd hm
    refine ⟨g1 ▸ a1, fun i s ht => ?_⟩
    obtain ⟨y, e, hy, b1, b2, b3⟩ := a2 i s r ht
    rw [r1, hx] at hy
    cases hy
    exact ⟨e, b1, b2, c1 ▸ b3⟩

/-- Without a socket nothing is sent and everything is freed. -/
theorem C72_silent_partial {env : Env} {d : D Ptrs} (h : Reach env d) (settled : ∀ w, w ≠ .now → d.q.walk w = []) (io : StepIo)
    (fuel : Nat) : ∃ d', leave env io false fuel d = .ok ([], d') ∧ AllFreed d' := by
  obtain ⟨d1, e1, n1, _⟩ := shutdown_call h settled
  obtain ⟨d', e3, f3⟩ := C65_all_freed (n1.reach h)
  refine ⟨d', ?_, f3⟩
  unfold leave
  rw [M.bind_ok e1]
  have ef : farewell env io false fuel d1 = .ok ([], d1) := rfl
  rw [M.bind_ok ef, M.bind_ok e3]
  rfl

/-! ### Concrete cases -/

namespace Sample

/-- The host with its address probed and both records announced. -/
def settledHost : D Ptrs := (trace quiet (host ++ every 103 18) fresh).2

/-- The clock stands still. -/
def standing : StepIo := { clock := fun _ => at_ 200, sleepAt := at_ 200 }

/-- The packets of leaving with enough fuel. -/
def leaving (d : D Ptrs) (io : StepIo) : Option (List (List (Section × Nat) × List (Nat × Nat))) :=
  match leave quiet io true 10 d with
  | .ok (ms, _) => some (ms.map fun p => (p.1.tags, (entries p.1.ops).map fun e => (e.type, e.ttl)))
  | _ => none

/-- C72: the hypotheses hold for it. -/
example : Reach quiet settledHost ∧ (∀ w, w ≠ .now → settledHost.q.walk w = []) ∧ settledHost.c.disco = false ∧
    FitsAlone settledHost.c ∧ (settledHost.c.recs 0).isSome ∧ (settledHost.c.recs 1).isSome ∧
    (∀ k, (standing.clock k).sec ≤ (standing.clock (k + 1)).sec) ∧ ∀ k, standing.accepted k = true := by
  have hr := (hist_of (ops := host ++ every 103 18) (by decide +kernel)).reach
  refine ⟨hr, ?_, by decide +kernel, ?_, by decide +kernel, by decide +kernel, fun _ => Nat.le_refl _, fun _ => rfl⟩
  · intro w hw
    cases w with
    | now => exact absurd rfl hw
    | probing => decide +kernel
    | publish => decide +kernel
    | pause => decide +kernel
  · exact fits_of hr (by decide +kernel)

/-- Both records are withdrawn in one packet. -/
example : leaving settledHost standing = some [([(.an, 1), (.an, 0)], [(12, 0), (1, 0)])] := by decide +kernel

/-- Two records that do not fit the same packet, announced. -/
def twoPackets : List Op := [.shared (nm 99) 16 120, .setRaw 0 long, .shared (nm 98) 16 120, .setRaw 1 long] ++ every 101 20

def bulky : D Ptrs := (trace quiet twoPackets (newD 1 100 (at_ 100))).2

/-- The socket takes both packets. -/
example : leaving bulky standing = some [([(.an, 0)], [(16, 0)]), ([(.an, 1)], [(16, 0)])] := by decide +kernel

end Sample

open Sample in
/-- C72 is false in full: when the socket does not take the first packet (`libmdnsd/mdnsd.c:1962-1963`) the goodbyes that would
follow are not tried, and the result of the step is not looked at (`src/mdnsd.c:146`). -/
theorem C72_refused_counterexample : ∃ d io, Reach quiet d ∧ (∀ w, w ≠ .now → d.q.walk w = []) ∧ (d.c.recs 1).isSome = true ∧
    ∃ fuel ms d', leave quiet io true fuel d = .ok (ms, d') ∧ tellingOf 1 ms = [] ∧ ms.length = 1 := by
  have key : leaving bulky { standing with accepted := fun _ => false } = some [([(.an, 0)], [(16, 0)])] := by decide +kernel
  refine ⟨bulky, { standing with accepted := fun _ => false }, ?_, ?_, by decide +kernel, 10, ?_⟩
  · exact reach_of (ops := twoPackets) (by decide +kernel)
  · intro w hw
    cases w with
    | now => exact absurd rfl hw
    | probing => decide +kernel
    | publish => decide +kernel
    | pause => decide +kernel
  · unfold leaving at key
    split at key
    · rename_i ms d' e
      refine ⟨ms, d', e, ?_, ?_⟩
      · simp only [Option.some.injEq] at key
        cases ms with
        | nil => cases key
        | cons p ms =>
          cases ms with
          | cons _ _ => simp at key
          | nil =>
            simp only [List.map_cons, List.map_nil, List.cons.injEq, Prod.mk.injEq, and_true] at key
            simp [tellingOf, key.1]
      · simp only [Option.some.injEq] at key
        have := congrArg List.length key
        simpa using this
    · cases key

open Sample in
/-- C72 is false in full: a daemon that leaves while it still announces uses freed memory. -/
theorem C72_early_counterexample : ∃ d, Reach quiet d ∧ d.c.disco = false ∧ leave quiet standing true 10 d = .ub :=
  ⟨_, reach_of (ops := [.shared (nm 99) 16 120, .setRaw 0 long, .shared (nm 98) 16 120, .setRaw 1 long, .shared (nm 97) 16 120,
    .setRaw 2 [1]]) (cls := 1) (frame := 100) (now := at_ 100) (by decide +kernel), by decide +kernel, outcome_ub (by decide +kernel)⟩

end Mdns
