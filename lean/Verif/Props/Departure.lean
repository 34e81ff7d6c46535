import Verif.Lemmas.Losing
import Verif.Props.Finding
import Verif.Props.Leaving

/-!
# C79: a departure is noticed

From `mdnsd_done` or `mdnsd_shutdown` of one daemon through the packet and the parser to the cache
and the callbacks of another daemon.
-/

namespace Mdns

open Spec

/-! ### Spec -/

/-- Whoever reads the packet forgets the record: a daemon in any state that receives it has no such
record in its cache afterwards, and if it had, the callback registered for its name and type is told
that it is gone, unless the query ends at that moment.

As in C20, a query of type ANY for the name must never have ended, and no callback may end its query
because of another record that goes away. -/
def Ends (env : Env) (m : Out) (rr : Answer) : Prop :=
  ∀ (d : D Ptrs) (src : Addr) (now : TV) (buf : RBuf), Reach env d → d.c.shutdown = false → Elsewhere env d.c src →
    Holds buf (messagePacket m.builder) →
    ∃ msg d' evs, messageParse buf structCap = .ok msg ∧ Mdns.step env (.recv now msg src) d = .ok (.unit, d') ∧
      d'.c.log = d.c.log ++ evs ∧ (∀ n t, ∀ b ∈ d'.c.listed n t, ¬ SameRec b rr.dotted) ∧
      ∀ b ∈ d.c.listed (canon rr.name) rr.type, SameRec b rr.dotted → (callback d.c.log (canon rr.name) rr.type).isSome →
        Event.unregistered (canon rr.name) 255 ∉ d'.c.log → env.KeepBut { b with ttl := 0 } →
        Event.unregistered (canon rr.name) rr.type ∈ evs ∨ { b with ttl := 0 } ∈ answersOf evs

/-- All records of a daemon can be sent. -/
structure Sendable (top : Bytes) (d : D Ptrs) : Prop where
  good : ∀ s y, d.c.recs s = some y → Publishable top y.rr
  cls : d.c.cls < 32768
  frame : d.c.frame ≤ 1300

/-- No other record of the daemon that is still alive has the same name, type and data. -/
def OnlyOne (d : D Ptrs) (r : Nat) (rr : Answer) : Prop :=
  ∀ s y, d.c.recs s = some y → s ≠ r → y.rr.ttl ≠ 0 → ¬ SameRec y.rr.dotted rr.dotted

/-! ### The packet with the goodbye -/

/-- One packet with a goodbye. -/
theorem bye_heard {envA envB : Env} {top : Bytes} {a a' : D Ptrs} (ha : Reach envA a) {now : TV} {ret : Nat} {m : Out} {to : Addr}
    (hs : OpSafe envA a.c a.q.walk (.send now)) (e : Mdns.step envA (.send now) a = .ok (.sent ret m to, a'))
    (hto : to.port = 5353) (hq : m.qr = true) (hg : Sendable top a) {r : Nat} {x : Rec} (hr : (Section.an, r) ∈ m.tags)
    (hx : a.c.recs r = some x) (h0 : x.rr.ttl = 0) (ho : OnlyOne a r x.rr) : Ends envB m x.rr := by
  intro d src now' buf hd hup hsrc hb
  cases ha.did hs e with
  | send n =>
    have hu : a.c.uanswers = [] := n.nouni hto ha.uni
    have hpk := n.packed hu hq
    obtain ⟨as, xs, ht⟩ := n.sections hu hq
    have hl := C40_response_partial ha hs e hto hq
    obtain ⟨hpkt, hok⟩ := Packed.response hpk (top := top) ht (fun t _ y hy => hg.good _ y hy) hg.cls hg.frame hl
    rw [hpkt] at hb
    have hparse := C03_build_parse_partial top _ hok buf hb
    have han : ∀ q : Resource, q ∈ (a.c.response as xs).seen.an ↔
        ∃ i y, (Section.an, i) ∈ m.tags ∧ a.c.recs i = some y ∧ q = (y.spec a.c.cls).seen := by
      intro q
      show q ∈ (a.c.specs as).map RSpec.seen ↔ _
      rw [List.mem_map]
      constructor
      · rintro ⟨s, ms, rfl⟩
        obtain ⟨i, y, mi, hy, rfl⟩ := Core.mem_specs.mp ms
        exact ⟨i, y, by rw [ht]; simp [mi], hy, rfl⟩
      · rintro ⟨i, y, mi, hy, rfl⟩
        refine ⟨_, Core.mem_specs.mpr ⟨i, y, ?_, hy, rfl⟩, rfl⟩
        rw [ht] at mi
        simpa using mi
    have hresp : Response envB d (a.c.response as xs).seen src := by
      refine ⟨hd, hup, rfl, hsrc, ?_⟩
      intro q mq
      obtain ⟨s, ms, rfl⟩ := List.mem_map.mp (show q ∈ (a.c.specs as).map RSpec.seen from mq)
      exact (hok.an s ms).wf
    have hpx := hg.good r x hx
    obtain ⟨d', evs, e1, e2, e3, e4⟩ := hresp.loses now' (g := (x.spec a.c.cls).seen) ((han _).mpr ⟨r, x, hr, hx, rfl⟩) h0 (by
      intro q mq h0' b hcb
      obtain ⟨i, y, mi, hy, rfl⟩ := (han q).mp mq
      have hy0 : y.rr.ttl ≠ 0 := h0'
      have hne : i ≠ r := by
        rintro rfl
        rw [hx] at hy
        cases hy
        exact hy0 h0
      rw [Bool.eq_false_iff]
      intro hcy
      have k1 := (carries_spec hpx _ b).mp hcb
      have k2 := (carries_spec (hg.good i y hy) _ b).mp hcy
      exact ho i y hy hne hy0 (k2.symm.trans k1))
    refine ⟨_, d', evs, hparse, e1, e2, fun n t b mb hsame => ?_, fun b mb hsame hcb hun hk => ?_⟩
    · have := e3 n t b mb
      rw [(carries_spec hpx _ b).mpr hsame] at this
      cases this
    · exact e4 b mb ((carries_spec hpx _ b).mpr hsame) hcb hun hk

/-- A goodbye among the packets a daemon makes. -/
theorem bye_shown {envA envB : Env} {top : Bytes} {a a' : D Ptrs} {h : List Call} (n : Calls envA a h a') (ha : Reach envA a)
    (hs : ∀ k ∈ h, ∃ t, k.1 = .send t) (hg : Sendable top a) {r : Nat} {x : Rec} (hx : a.c.recs r = some x) (h0 : x.rr.ttl = 0)
    (ho : OnlyOne a r x.rr) {kk : Call} (mk : kk ∈ h) (hshow : Call.shows .an r kk = true) :
    ∃ t m ret to, kk = (Op.send t, OpOut.sent ret m to) ∧ to.port = 5353 ∧ Ends envB m x.rr := by
  obtain ⟨pre, post, rfl⟩ := List.append_of_mem mk
  obtain ⟨d1, d2, n1, hso, e2, _⟩ := Calls.at (o := kk.1) (a := kk.2) n
  obtain ⟨t, ht1⟩ := hs kk mk
  obtain ⟨o, out⟩ := kk
  simp only at ht1
  subst ht1
  have hr2 := n1.reach ha
  obtain ⟨kp, kf⟩ := n1.kept ha (fun k m => by
    obtain ⟨t, e⟩ := hs k (by simp [m])
    exact ⟨t, e⟩)
  simp only at hso e2
  unfold Call.shows at hshow
  rw [Bool.and_eq_true] at hshow
  simp only at hshow
  obtain ⟨hmul, htag⟩ := hshow
  cases out with
  | sent ret m1 to =>
    have hto : to.port = 5353 := beq_iff_eq.mp hmul
    have htag : (Section.an, r) ∈ m1.tags := List.contains_iff_mem.mp htag
    refine ⟨t, m1, ret, to, rfl, hto, ?_⟩
    have hdid := hr2.did hso e2
    have hqr : m1.qr = true ∧ ∃ x1, d1.c.recs r = some x1 := by
      generalize d2.c = c', d2.lists = l' at hdid
      cases hdid with
      | send ho =>
        have h1 := ho.answer_qr (ho.nouni hto hr2.uni) htag
        exact ⟨h1, (ho.packed (ho.nouni hto hr2.uni) h1).recs _ htag⟩
    obtain ⟨hqr, x1, hx1⟩ := hqr
    obtain ⟨x0, hx0, hrr, _⟩ := kp.2 r x1 hx1
    rw [hx] at hx0
    cases hx0
    have hg1 : Sendable top d1 := by
      refine ⟨fun s y hy => ?_, by rw [kp.1]; exact hg.cls, by rw [kf]; exact hg.frame⟩
      obtain ⟨y0, h1, h2, _⟩ := kp.2 s y hy
      rw [h2]
      exact hg.good s y0 h1
    have := bye_heard (envB := envB) hr2 hso e2 hto hqr hg1 htag hx1 (by rw [hrr]; exact h0) (by
      intro s y hy hne hy0
      obtain ⟨y0, h1, h2, _⟩ := kp.2 s y hy
      rw [h2, hrr]
      exact ho s y0 h1 hne (by rw [← h2]; exact hy0))
    rw [hrr] at this
    exact this
  | _ => cases hmul

theorem Publishable.over {top : Bytes} {a : Answer} (h : Publishable top a) : Publishable top { a with ttl := 0 } :=
  ⟨h.name, h.type, by show 0 < 4294967296; decide, by
    cases h.data with
    | v4 t n d h => exact .v4 t n d h
    | v6 t n d z h => exact .v6 t n d z h
    | name n t h g => exact .name n t h g
    | srv n t h g p w o => exact .srv n t h g p w o
    | raw b t n d => exact .raw b t n d⟩

/-! ### Theorems -/

/-- C79 (partial), a record is withdrawn: after `mdnsd_done` on a record that was set and is not being
probed, when packets are made every two seconds, one of them makes everyone who reads it forget the
record. Assumed are names below a common top label (see `C03_prefix_counterexample`), and that the
daemon does not have the same record twice. -/
theorem C79_withdrawn_partial {envA envB : Env} {top : Bytes} {h : List Call} {r : Nat} {o : OpOut} {T : TV} {a0 a : D Ptrs}
    (h0 : Hist envA h a0) (hg : Sendable top a0) {x : Rec} (hx : a0.c.recs r = some x) (hp : ¬ x.Probing)
    (hset : ∃ k ∈ h, k.1.sets r = true) (ho : OnlyOne a0 r x.rr)
    (n : Calls envA a0 [(.done r, o)] a) (k : Quieted envA (h ++ [(.done r, o)]) T a) (up : a.c.shutdown = false) :
    ∀ h' a', Calls envA a h' a' → PacedFrom T h' → a.c.uanswers.length + 9 * a.q.size ≤ h'.length →
      ∃ t m ret to, (Op.send t, OpOut.sent ret m to) ∈ h' ∧ to.port = 5353 ∧ Ends envB m x.rr := by
  intro h' a' n' hpf hl
  have hsh := (C34_one_goodbye_partial h0 hx hp hset n k up h' a' n' hpf hl).1
  have hr := h0.reach
  have hd := hr.did n.single.1 n.single.2
  have key : a.c.recs r = some { x with rr := { x.rr with ttl := 0 } } ∧ (∀ s, s ≠ r → a.c.recs s = a0.c.recs s) ∧
      a.c.cls = a0.c.cls ∧ a.c.frame = a0.c.frame := by
    generalize a.c = c', a.lists = l' at hd
    cases hd with
    | done hx' =>
      rw [hx] at hx'
      cases hx'
      obtain ⟨k1, k2⟩ := doneSt_recs hr.inv.rinv hx
      have hf := doneSt_recfree a0.c a0.lists r x
      exact ⟨k1.2 hp, fun s hs => congrArg View.x (k2 s hs), (congrArg Core.cls hf : (doneSt a0.c a0.lists r x).c.recfree.cls = _),
        (congrArg Core.frame hf : (doneSt a0.c a0.lists r x).c.recfree.frame = _)⟩
  obtain ⟨k1, k2, k3, k4⟩ := key
  have hg1 : Sendable top a := by
    refine ⟨fun s y hy => ?_, by rw [k3]; exact hg.cls, by rw [k4]; exact hg.frame⟩
    by_cases hs : s = r
    · subst hs
      rw [k1] at hy
      cases hy
      exact (hg.good s x hx).over
    · rw [k2 s hs] at hy
      exact hg.good s y hy
  obtain ⟨kk, mk⟩ : ∃ kk, kk ∈ h'.filter (Call.shows .an r) := by
    unfold shown at hsh
    cases hf : h'.filter (Call.shows .an r) with
    | nil => rw [hf] at hsh; cases hsh
    | cons k _ => exact ⟨k, by simp⟩
  rw [List.mem_filter] at mk
  obtain ⟨t, m, ret, to, rfl, h1, h2⟩ := bye_shown (envB := envB) n' (n.reach hr) hpf.1.1 hg1 k1 rfl (by
    intro s y hy hs hy0
    rw [k2 s hs] at hy
    exact ho s y hy hs hy0) mk.1 mk.2
  exact ⟨t, m, ret, to, mk.1, h1, h2⟩

/-- C79 (partial), a daemon leaves: when it gives up an interface, for every record published on it
there is a packet handed to the socket before this is closed, for everyone, that makes everyone who
reads it forget the record. The conditions are those of C72, names below a common top label, and data
that suits the types of the records. -/
theorem C79_left_partial {envA envB : Env} {top : Bytes} (hk : envA.KeepOnExpiry) {a : D Ptrs} (h : Reach envA a)
    (hg : Sendable top a) (settled : ∀ w, w ≠ .now → a.q.walk w = []) (plain : a.c.disco = false) (fits : FitsAlone a.c)
    (io : StepIo) (hc : ∀ k, (io.clock k).sec ≤ (io.clock (k + 1)).sec) (ha : ∀ k, io.accepted k = true) :
    ∃ N ms a', (∀ fuel, N ≤ fuel → leave envA io true fuel a = .ok (ms, a')) ∧
      ∀ r x, a.c.recs r = some x → ∃ m to, (m, to) ∈ ms ∧ to.port = 5353 ∧ Ends envB m x.rr := by
  obtain ⟨d1, e1, n1, c1, f1, p1, g1, r1, q1⟩ := shutdown_call h settled
  have h1 := n1.reach h
  have i1 := h1.inv.rinv
  obtain ⟨N, rc, ms, _, d2, hN, _⟩ := C61_out_ends_partial hk h1 hc io.accepted
  have e2 := hN N (Nat.le_refl _)
  have hrc : rc = 0 := processOut_taken ha _ _ e2
  subst hrc
  obtain ⟨hs, n2, pk, snd, g⟩ := processOut_sends hk _ _ h1 e2
  have h2 := n2.reach h1
  have h3 : Reach envA { d2 with c := { d2.c with disco := false } } := h2.step (o := .stepEnd) (a := .unit) trivial rfl
  obtain ⟨d', e3, f3⟩ := C65_all_freed h3
  refine ⟨N, ms, d', fun fuel hf => ?_, fun r x hx => ?_⟩
  · unfold leave
    rw [M.bind_ok e1]
    have ef : farewell envA io true fuel d1 = .ok (ms, { d2 with c := { d2.c with disco := false } }) := by
      unfold farewell
      rw [if_pos rfl]
      have : mdnsdStep envA { io with input := false, output := true, wait := false } fuel d1 =
          .ok (⟨0, ms, none⟩, { d2 with c := { d2.c with disco := false } }) := by
        unfold mdnsdStep
        rw [M.bind_ok (show stepIn envA _ d1 = .ok (0, d1) from rfl)]
        rw [M.bind_ok (show stepOut envA _ fuel 0 d1 = .ok ((0, ms), d2) from by
          unfold stepOut
          rw [if_pos ⟨rfl, rfl⟩]
          exact hN fuel hf)]
        rfl
      rw [M.bind_ok this]
      rfl
    rw [M.bind_ok ef, M.bind_ok e3]
    rfl
  · have hy : d1.c.recs r = some x.over := by rw [r1, hx]; rfl
    have hq := q1 r (by rw [hy]; rfl)
    have hback : ∀ s y, d1.c.recs s = some y → ∃ y0, a.c.recs s = some y0 ∧ y = y0.over := by
      intro s y hy
      rw [r1] at hy
      cases hx0 : a.c.recs s with
      | none => rw [hx0] at hy; cases hy
      | some x0 =>
        rw [hx0] at hy
        cases hy
        exact ⟨x0, rfl, rfl⟩
    obtain ⟨kk, mc, sc, hin⟩ := g r (p1.trans plain) (by
      intro s y hy
      obtain ⟨y0, h0, rfl⟩ := hback s y hy
      rw [f1]
      exact fits s y0 h0) rfl (.inl hq)
    have hg1 : Sendable top d1 := by
      refine ⟨fun s y hy => ?_, by rw [c1]; exact hg.cls, by rw [f1]; exact hg.frame⟩
      obtain ⟨y0, h0, rfl⟩ := hback s y hy
      exact (hg.good s y0 h0).over
    obtain ⟨t, m, ret, to, rfl, k1, k2⟩ := bye_shown (envB := envB) n2 h1 snd hg1 hy rfl (by
      intro s y hy hne hy0
      obtain ⟨y0, h0, rfl⟩ := hback s y hy
      exact absurd rfl hy0) mc sc
    exact ⟨m, to, hin t ret m to rfl, k1, k2⟩

/-! ### Example -/

namespace Sample

/-- The publisher after withdrawing the pointer. -/
def withdrawing : D Ptrs := (trace quiet [.done 0] holder).2

theorem holder_sendable : Sendable [0x6C, 0x6F, 0x63, 0x61, 0x6C] holder := by
  obtain ⟨_, _, h⟩ := holder_has
  exact ⟨h.good, h.cls, h.frame⟩

/-- C79: the hypotheses for withdrawing hold. -/
example : ∃ h x, Hist quiet h holder ∧ Sendable [0x6C, 0x6F, 0x63, 0x61, 0x6C] holder ∧ holder.c.recs 0 = some x ∧ x.rr = ptrBA ∧
    ¬ x.Probing ∧ (∃ k ∈ h, k.1.sets 0 = true) ∧ OnlyOne holder 0 x.rr ∧ Calls quiet holder [(.done 0, .unit)] withdrawing ∧
    Quieted quiet (h ++ [(.done 0, .unit)]) (at_ 112) withdrawing ∧ withdrawing.c.shutdown = false := by
  have hc : Calls quiet (newD 1 1000 (at_ 100)) (trace quiet published (newD 1 1000 (at_ 100))).1 holder :=
    calls_of (by decide +kernel)
  obtain ⟨x, e, h⟩ := holder_has
  have hr := hc.hist.reach
  have hd : (trace quiet [.done 0] holder).1.map (fun k => decide (k.1 = .done 0 ∧ k.2 = .unit)) = [true] := by decide +kernel
  have n : Calls quiet holder [(.done 0, .unit)] withdrawing := by
    have n : Calls quiet holder (trace quiet [.done 0] holder).1 withdrawing := calls_of (by decide +kernel)
    cases hl : (trace quiet [.done 0] holder).1 with
    | nil => rw [hl] at hd; cases hd
    | cons k ks =>
      cases ks with
      | cons _ _ => rw [hl] at hd; simp at hd
      | nil =>
        rw [hl] at hd n
        obtain ⟨o, a⟩ := k
        have := of_decide_eq_true (List.cons.inj hd).1
        obtain ⟨rfl, rfl⟩ := this
        exact n
  refine ⟨_, x, h.hist, holder_sendable, h.has, e, fun hp => h.probed ?_, h.wasSet, ?_, n, ?_, by decide +kernel⟩
  · exact (hr.inv.rinv.probing 0 x h.has).mpr hp
  · intro s y hy hne _ hsame
    have hall : allB holder (fun y => isPtr y || isSrv y) = true := by decide +kernel
    have := all_of hr hall hy
    rw [Bool.or_eq_true] at this
    rcases this with h1 | h1
    · have h2 : holder.q.size = 2 := by decide +kernel
      have hb : s < holder.q.size := hr.inv.rinv.bound s (by rw [hy]; rfl)
      have h3 : (holder.c.recs 1).any isPtr = false := by decide +kernel
      have : s = 1 := by omega
      subst this
      rw [hy] at h3
      rw [show Option.any isPtr (some y) = isPtr y from rfl, h1] at h3
      cases h3
    · have h2 : y.rr = srvBA := of_decide_eq_true h1
      rw [h2, e] at hsame
      have : (33 : Nat) = 12 := hsame.2.1
      cases this
  · exact {
      calls := ⟨1, 1000, at_ 100, by decide, by decide, hc.append n⟩
      past := by
        intro k mk
        rcases List.mem_append.mp mk with mk | mk
        · have : ∀ k ∈ (trace quiet published (newD 1 1000 (at_ 100))).1, Call.before (at_ 112) k := by decide +kernel
          exact this k mk
        · rw [List.mem_singleton.mp mk]
          decide
      plain := by decide +kernel
      fits := fits_of (n.reach hr) (by decide +kernel) }

/-- C79: the hypotheses for leaving hold for a daemon that has announced both records. -/
def doneAnnouncing : D Ptrs := (trace quiet (publishing ++ every 101 12) (newD 1 1000 (at_ 100))).2

example : Reach quiet doneAnnouncing ∧ Sendable [0x6C, 0x6F, 0x63, 0x61, 0x6C] doneAnnouncing ∧
    (∀ w, w ≠ .now → doneAnnouncing.q.walk w = []) ∧ doneAnnouncing.c.disco = false ∧ FitsAlone doneAnnouncing.c ∧
    (doneAnnouncing.c.recs 0).isSome ∧ (doneAnnouncing.c.recs 1).isSome := by
  have hr : Reach quiet doneAnnouncing := reach_of (ops := publishing ++ every 101 12) (by decide +kernel)
  have hall : allB doneAnnouncing (fun y => isPtr y || isSrv y) = true := by decide +kernel
  refine ⟨hr, ⟨fun s y hy => ?_, by decide +kernel, by decide +kernel⟩, ?_, by decide +kernel, fits_of hr (by decide +kernel),
    by decide +kernel, by decide +kernel⟩
  · have := all_of hr hall hy
    rw [Bool.or_eq_true] at this
    rcases this with h | h
    · rw [show y.rr = ptrBA from of_decide_eq_true h]; exact ptrBA_ok
    · rw [show y.rr = srvBA from of_decide_eq_true h]; exact srvBA_ok
  · intro w hw
    cases w with
    | now => exact absurd rfl hw
    | probing => decide +kernel
    | publish => decide +kernel
    | pause => decide +kernel

/-- What the other daemon has and is told: after the announcement, and after the goodbye. -/
def parts : Option (List (Nat × List Bool)) :=
  match messageParse (RBuf.ofBytes recvSize (messagePacket (question (at_ 101) publisher).builder)) structCap with
  | .ok m1 =>
    match messageParse (RBuf.ofBytes recvSize (messagePacket (question (at_ 112) withdrawing).builder)) structCap with
    | .ok m2 =>
      let d1 := (trace quiet [.recv (at_ 101) m1 other] (browser 12)).2
      let d2 := (trace quiet [.recv (at_ 112) m2 other] d1).2
      some ([d1, d2].map fun d => (((d.c.listed nameA 12).filter fun b => decide (b.rdname = ptrBA.rdname)).length,
        (answersOf d.c.log).map fun b => decide (b.rdname = ptrBA.rdname ∧ b.ttl = 0)))
    | _ => none
  | _ => none

example : parts = some [(1, [false]), (0, [false, true])] := by decide +kernel

end Sample

end Mdns
