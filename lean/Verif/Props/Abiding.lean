import Verif.Props.Staying
import Verif.Props.Prompt

/-!
# C87: what is published stays known to whoever asks for it
-/

namespace Mdns

/-! ### Specification -/

/-- The packet `m`, made by the daemon B in the state `d`, is one that can be sent, about names that are not the enumeration of
services; and all names that B knows are as they are in packets. -/
structure PlainQuestion (top : Bytes) (d : D Ptrs) (m : Out) : Prop where
  good : Askable top d.c m
  cls : d.c.cls < 32768
  frame : d.c.frame ≤ 1300
  len : m.len ≤ 1400
  names : ∀ n t, m.asks n t = true → canon n ≠ discoName
  known : ∀ n t, ∀ y ∈ d.c.listed n t, y.dotted = y

/-- A step of the daemon A, which has published the record `x`, receives the packet `m` of a daemon with the class `cls`, and sends
the packets `out`. -/
structure ServedBy (env : Env) (top : Bytes) (r : Nat) (x : Rec) (cls : Nat) (m : Out) (out : StepOut) : Prop where
  step : ∃ h a a' io now src fuel, HasPublished env top h a r x ∧ a.c.cls = cls ∧ Elsewhere env a.c src ∧
    io.input = true ∧ io.datagrams = [⟨now, messagePacket m.builder, src⟩] ∧ io.failed = false ∧ io.output = true ∧
    (x.unique = 0 → ∀ j, tvdiff (io.clock j) ⟨now.sec, now.usec + 119⟩ ≤ 0) ∧ mdnsdStep env io fuel a = .ok (out, a')
  sent : out.rc = 0

/-- The two daemons are connected: whenever B asks the question, a step of A that has published the record `x` receives the packet,
and whatever A sends to everyone in this step is received by B before three seconds are over. -/
def Connected (envA envB : Env) (top : Bytes) (r : Nat) (x : Rec) (d : D Ptrs) (host : Bytes) (type : Nat) (h : List Call) : Prop :=
  ∀ p now ret m to q dp, h = p ++ (.send now, .sent ret m to) :: q → Calls envB d p dp → m.asks host type = true →
    PlainQuestion top dp m ∧
    ((∃ k' ∈ q, ∃ c, k'.1.clock = some c ∧ now.sec + 2 < c.sec) →
      ∃ out, ServedBy envA top r x dp.c.cls m out ∧ ∀ m1 to1, (m1, to1) ∈ out.packets → to1.port = 5353 →
        ∃ q1 now' msg src a q2 d' buf, q = q1 ++ (.recv now' msg src, a) :: q2 ∧ now'.sec ≤ now.sec + 2 ∧
          Holds buf (messagePacket m1.builder) ∧ messageParse buf structCap = .ok msg ∧
          Calls envB d (p ++ (.send now, .sent ret m to) :: q1) d' ∧ Elsewhere envB d'.c src)

/-! ### Proofs -/

/-- A packet of the daemon with the record among the answers says that there is this record. -/
theorem shown_says {envA : Env} {top : Bytes} {a a1 a2 : D Ptrs} {h h' : List Call} {r : Nat} {x : Rec}
    (ha : HasPublished envA top h a r x) (hrc : Receives envA a a1 r x) (n : Calls envA a1 h' a2)
    (hs : ∀ k ∈ h', ∃ t, k.1 = .send t) {kk : Call} (mk : kk ∈ h') (hsh : Call.shows .an r kk = true) :
    ∃ t m1 ret to spec, kk = (Op.send t, OpOut.sent ret m1 to) ∧ to.port = 5353 ∧ messagePacket m1.builder = MSpec.packet spec ∧
      spec.Ok top ∧ spec.seen.header.qr = true ∧ ∃ rr ∈ spec.seen.an, carries rr x.rr.dotted = true ∧ rr.ttl ≠ 0 := by
  have hr1 := hrc.reach
  obtain ⟨pre, post, rfl⟩ := List.append_of_mem mk
  obtain ⟨d1, d2, n1, hso, e2, _⟩ := Calls.at (o := kk.1) (a := kk.2) n
  obtain ⟨t, ht1⟩ := hs kk mk
  obtain ⟨o, out⟩ := kk
  simp only at ht1
  subst ht1
  have hr2 := n1.reach hr1
  obtain ⟨kp, kf⟩ := n1.kept hr1 (fun k m => by
    obtain ⟨t, e⟩ := hs k (by simp [m])
    exact ⟨t, e⟩)
  simp only at hso e2
  unfold Call.shows at hsh
  rw [Bool.and_eq_true] at hsh
  simp only at hsh
  obtain ⟨hmul, htag⟩ := hsh
  cases out with
  | sent ret m1 to =>
    have hto : to.port = 5353 := beq_iff_eq.mp hmul
    have htag : (Section.an, r) ∈ m1.tags := List.contains_iff_mem.mp htag
    have hdid := hr2.did hso e2
    have hqr : m1.qr = true := by
      generalize d2.c = c', d2.lists = l' at hdid
      cases hdid with
      | send ho => exact ho.answer_qr (ho.nouni hto hr2.uni) htag
    have hrec : ∀ s y, d1.c.recs s = some y → ∃ y0, a.c.recs s = some y0 ∧ y.rr = y0.rr := by
      intro s y hy
      obtain ⟨y0, h1, h2, _⟩ := kp.2 s y hy
      exact ⟨y0, hrc.recs s y0 h1, h2⟩
    have hcls : d1.c.cls < 32768 := by rw [kp.1, hrc.cls]; exact ha.cls
    have hfra : d1.c.frame ≤ 1300 := by rw [kf, hrc.frame]; exact ha.frame
    have hgood : ∀ t ∈ m1.tags, ∀ y, d1.c.recs t.2 = some y → Publishable top y.rr := by
      intro g _ y hy
      obtain ⟨y0, h1, h2⟩ := hrec _ y hy
      rw [h2]
      exact ha.good _ _ h1
    generalize d2.c = c', d2.lists = l' at hdid
    cases hdid with
    | send ho =>
      have hu := ho.nouni hto hr2.uni
      obtain ⟨as, xs, ht⟩ := ho.sections hu hqr
      obtain ⟨e1, e2'⟩ := Packed.response (ho.packed hu hqr) (top := top) ht hgood hcls hfra (C40_response_partial hr2 hso e2 hto hqr)
      obtain ⟨x1, hx1⟩ := (ho.packed hu hqr).recs _ htag
      obtain ⟨x0, h1, h2⟩ := hrec r x1 hx1
      rw [ha.has] at h1
      cases h1
      refine ⟨t, m1, ret, to, _, rfl, hto, e1, e2', rfl, (x1.spec d1.c.cls).seen, ?_, ?_, ?_⟩
      · show _ ∈ (Core.specs _ as).map RSpec.seen
        refine List.mem_map.mpr ⟨_, Core.mem_specs.mpr ⟨r, x1, ?_, hx1, rfl⟩, rfl⟩
        rw [ht] at htag
        simpa using htag
      · refine (carries_spec (hgood _ htag x1 hx1) _ _).mpr ?_
        rw [h2]
        exact .refl _
      · show x1.rr.ttl ≠ 0
        rw [h2]
        exact ha.live
  | _ => cases hmul

/-- A published record that is asked for and not listed as known is in a packet to everyone. -/
theorem ServedBy.says {envA envB : Env} (hkA : envA.KeepOnExpiry) {top : Bytes} {b : D Ptrs} {nowB : TV} {m : Out} {host : Bytes}
    {type r : Nat} {x : Rec} {out : StepOut} (h : ServedBy envA top r x b.c.cls m out) (hb : AskedFor envB top b nowB m host type)
    (hn : x.rr.name = canon host) (ht : typeFits type x.rr)
    (hnew : ∀ n t, ∀ y ∈ b.c.listed n t, SameRec x.rr y.dotted → y.ttl ≤ nowB.sec + 8)
    (hd : ∀ n t, m.asks n t = true → canon n ≠ discoName) :
    ∃ m1 to spec, (m1, to) ∈ out.packets ∧ to.port = 5353 ∧ messagePacket m1.builder = MSpec.packet spec ∧
      spec.Ok top ∧ spec.seen.header.qr = true ∧ ∃ rr ∈ spec.seen.an, carries rr x.rr.dotted = true ∧ rr.ttl ≠ 0 := by
  obtain ⟨hA, a, a', io, nowA, srcB, fuel, ha, hc, hsrc, hi, hg, hf, ho, hw, e⟩ := h.step
  obtain ⟨d1, d2, e1, gg⟩ := mdnsdStep_sends hkA e ho h.sent
  obtain ⟨spec, a1, hpk, hok, e2, hr, hpause⟩ := asked_queued hb ha hn ht hc hnew hd hsrc nowA
  rw [hpk] at hg
  obtain ⟨hs, hm⟩ := C62_built_datagrams top spec hok nowA srcB
  have := stepIn_one hi hg hs hm hf e2
  rw [this] at e1
  cases e1
  obtain ⟨hs', n', p, s, g'⟩ := gg hr.reach
  obtain ⟨⟨o, ans⟩, mc, sc, gc⟩ := g' r hr.plain hr.fits (by
    have hq := hr.queue
    split at hq
    · exact .inl hq
    · rename_i hu
      have hu : x.unique = 0 := by simpa using hu
      refine .inr ⟨hq, fun j => ?_, hr.up⟩
      rw [hpause hu]
      have := hw hu j
      unfold tvdiff soon at *
      simp only at *
      have : nowA.usec % 100 < 100 := Nat.mod_lt _ (by decide)
      omega)
  obtain ⟨t, m1, ret, to, spec1, ec, hto, h1, h2, h3, h4⟩ := shown_says ha hr n' s mc sc
  exact ⟨m1, to, spec1, gc _ _ _ _ ec, hto, h1, h2, h3, h4⟩

/-- A daemon that has published the record is one that replies. -/
theorem Connected.replied {envA envB : Env} (hkA : envA.KeepOnExpiry) {top : Bytes} {r : Nat} {x : Rec} {d : D Ptrs} {host : Bytes}
    {type : Nat} {h : List Call} (hr : Reach envB d) {d2 : D Ptrs} (n : Calls envB d h d2)
    (hc : Connected envA envB top r x d host type h) (hn : x.rr.name = host) (ht : typeFits type x.rr) (hx : x.rr.dotted = x.rr) :
    Replied envB d host type x.rr h := by
  intro p k q t dp eh np hk hkn hlate
  obtain ⟨o, out⟩ := k
  unfold Call.askTime at hk
  split at hk
  · rename_i now ret m to heq
    cases heq
    split at hk
    · rename_i hask
      cases hk
      obtain ⟨hpq, hcon⟩ := hc p now ret m to q dp eh np hask
      obtain ⟨out, hsv, hall⟩ := hcon hlate
      have hcanon : canon host = host := by
        have := congrArg Answer.name hx
        rw [← hn]
        exact this
      rw [eh] at n
      obtain ⟨d3, d4, n3, hs, e, _⟩ := Calls.at (o := .send now) (a := .sent ret m to) n
      have := n3.det np
      subst this
      have hb : AskedFor envB top d3 now m host type := ⟨n3.reach' hr, hs, ⟨ret, to, d4, e⟩, hask, hpq.good, hpq.cls, hpq.frame, hpq.len⟩
      obtain ⟨m1, to1, spec, mo, hto, hpk, hok, hqr, rr, mr, hca, h0⟩ := hsv.says hkA hb (by rw [hn, hcanon]) ht (by
        intro nn tt y my hsame
        rw [hpq.known nn tt y my] at hsame
        refine hkn y ?_ hsame.symm
        obtain ⟨m1, m2⟩ := mem_listed_iff.mp my
        obtain ⟨i1, _⟩ := (is_iff _ _ _).mp m2
        have hyn : y.name = host := hsame.1.symm.trans hn
        have hnn : nn = host := i1.symm.trans hyn
        rw [hnn] at m1
        refine mem_listed_iff.mpr ⟨m1, (is_iff _ _ _).mpr ⟨hyn, ?_⟩⟩
        unfold typeFits at ht ⊢
        rw [← hsame.2.1]
        exact ht) hpq.names
      obtain ⟨q1, now', msg, src, a, q2, d', buf, eq, hle, hbuf, hmsg, nd, hels⟩ := hall m1 to1 mo hto
      rw [hpk] at hbuf
      have := C03_build_parse_partial top _ hok _ hbuf
      rw [this] at hmsg
      cases hmsg
      rw [hx] at hca
      exact ⟨q1, _, q2, d', now', eq, nd, ⟨now', _, src, rr, rfl, hqr, hels, mr, hca, h0⟩, rfl, hle⟩
    · cases hk
  · cases hk

/-- A query that has not been asked is due. -/
theorem Calls.unasked {env : Env} {d d' : D Ptrs} {h : List Call} (n : Calls env d h d') (hr : Reach env d) {host : Bytes} {type N : Nat}
    {evs : List Event} (hq : ∃ q x, d.c.qs q = some x ∧ x.name = host ∧ x.type = type ∧ x.nexttry = N ∧ x.tries = 0)
    (ha : askTimes host type h = []) (hlog : d'.c.log = d.c.log ++ evs) (hn : .unregistered host type ∉ evs) :
    ∃ q x, d'.c.qs q = some x ∧ x.name = host ∧ x.type = type ∧ x.nexttry = N ∧ x.tries = 0 := by
  induction n generalizing evs with
  | nil => exact hq
  | @snoc h d1 d2 o a n hs e ih =>
    have hr1 := n.reach' hr
    obtain ⟨ev1, hl1⟩ := n.log hr
    obtain ⟨ev2, hl2⟩ := (After.step .refl hs e).log hr1
    have hev : evs = ev1 ++ ev2 := by
      rw [hl2, hl1, List.append_assoc] at hlog
      exact (List.append_cancel_left hlog).symm
    subst hev
    rw [askTimes_snoc, List.append_eq_nil_iff] at ha
    obtain ⟨q, x, hx, rfl, rfl, h3, h4⟩ := ih ha.1 hl1 fun m => hn (by simp [m])
    obtain ⟨ev3, y, hl3, hy, e1, e2, mv⟩ := hr1.move hs e hx
    rw [hl2] at hl3
    have := List.append_cancel_left hl3
    subst this
    have hy := hy.resolve_left fun m => hn (by simp [m])
    refine ⟨q, y, hy, e1, e2, ?_⟩
    rcases mv with ⟨_, h1, h2, _⟩ | ⟨t, ret, m, to, rfl, rfl, mv⟩
    · rw [h1, h2]
      exact ⟨h3, h4⟩
    · have hno : m.asks x.name x.type = false := by
        have := ha.2
        unfold Call.askTime at this
        simp only at this
        split at this
        · cases this
        · rename_i h
          simpa using h
      rw [hno] at mv
      cases mv with
      | same h1 h2 _ =>
        rw [h1, h2]
        exact ⟨h3, h4⟩
      | turn ht hb =>
        rw [h3, h4] at ht
        generalize hyn : y.nexttry = n', hyk : y.tries = k' at ht ⊢
        cases ht with
        | idle _ => exact ⟨rfl, rfl⟩

theorem Later.lastClock {env : Env} {d d' : D Ptrs} {h : List Call} {T T' : Nat} (n : Later env d T h d' T') (hlt : T < T') :
    ∃ k ∈ h, ∃ c, k.1.clock = some c ∧ c.sec = T' := by
  induction n with
  | nil => omega
  | @snoc h d1 d' o a T1 T' n hs e hT hle ih =>
    cases hc : o.clock with
    | some c =>
      rw [hc] at hT
      exact ⟨(o, a), by simp, c, hc, hT.symm⟩
    | none =>
      rw [hc] at hT
      simp only at hT
      obtain ⟨k, mk, c, h1, h2⟩ := ih (by omega)
      exact ⟨k, by simp [mk], c, h1, h2.trans hT.symm⟩

/-- C87 (partial): a daemon A has published a record, and a daemon B starts to ask for its name and type. The two are connected:
the questions of B reach A, and what A sends reaches B within two seconds. Then four seconds later, and ever after, B
lists the record, and it has not expired; until the query ends, the record is withdrawn, or A is no longer there.

Assumed are: the daemons do their work in time (`Tended`: `mdnsd_out` is called until there is nothing to send, in every second or the one
after it); all answers that are received have the same lifetime, see `C84_shorter_counterexample`; nobody says
that the record is gone, or replaces it; what C68 assumes for a question to be answered; and names as they are in packets, with a
trailing dot. -/
theorem C87_known_partial {envA envB : Env} (hkA : envA.KeepOnExpiry) {top : Bytes} {d d1 d2 : D Ptrs} {T0 T L r type cb : Nat} {x : Rec}
    {pre post : List Call} {evs : List Event} {a : OpOut} (hr : Timed envB pre d T0) (hnew : callback d.c.log x.rr.name type = none)
    (e : Mdns.step envB (.query x.rr.name type (some cb)) d = .ok (a, d1)) (n : Later envB d1 T0 post d2 T)
    (hx : x.rr.dotted = x.rr) (ht : typeFits type x.rr)
    (h0 : ∀ b' ∈ d1.c.listed x.rr.name type, ¬ SameRec b' x.rr)
    (hcon : Connected envA envB top r x d1 x.rr.name type post)
    (hlife : SameLife x.rr.name type L (pre ++ post)) (hund : Undisturbed x.rr post) (htend : Tended T0 post)
    (hup : ∀ p q d', post = p ++ q → Calls envB d1 p d' → d'.c.shutdown = false)
    (hl : d2.c.log = d1.c.log ++ evs) (hreg : .unregistered x.rr.name type ∉ evs) (hT : T0 + 4 ≤ T) :
    ∃ b ∈ d2.c.listed x.rr.name type, SameRec b x.rr ∧ T < b.ttl := by
  have hb1 : x.rr.is x.rr.name type = true := (is_iff _ _ _).mpr ⟨rfl, ht⟩
  have hr1 : Reach envB d1 := hr.reach.step (o := .query x.rr.name type (some cb)) trivial e
  have hrep := hcon.replied hkA hr1 n.calls rfl ht hx
  have st : Steady envB d1 T0 x.rr.name type x.rr L post d2 T :=
    ⟨n, fun k m => hlife k (by simp [m]), hund, hrep, htend, hup, fun ev h => by
      rw [hl] at h
      rw [← List.append_cancel_left h]
      exact hreg⟩
  obtain ⟨_, hst⟩ := Steady.stays hr hnew e (fun k m => hlife k (by simp [m])) hb1 h0 post st
  rcases hst with hst | ⟨b', s0, I⟩
  · exfalso
    obtain ⟨k, mk, c, hc, hck⟩ : ∃ k ∈ post, ∃ c, k.1.clock = some c ∧ c.sec = T := n.lastClock (by omega)
    obtain ⟨p, now, m, to, now', m', to', q, ep, hn1, hn2⟩ := htend T0 (Nat.le_refl _) ⟨k, mk, c, hc, by omega⟩
    have nl := n
    rw [ep] at nl
    obtain ⟨dp, Tp, np, nq⟩ := nl.split
    have hle : Tp ≤ now.sec := (nq.clocks (.send now, .sent 0 m to) (by simp) now rfl).1
    obtain ⟨d3, d4, n3, hs3, e3, n5⟩ := Calls.at (o := .send now) (a := .sent 0 m to) nl.calls
    have := n3.det np.calls
    subst this
    -- asked
    have hask : askTimes x.rr.name type p ≠ [] := by
      intro hno
      obtain ⟨ev1, hl1⟩ := n3.log hr1
      obtain ⟨ev2, hl2⟩ := (After.step .refl hs3 e3).log (n3.reach' hr1)
      obtain ⟨ev3, hl3⟩ := n5.log ((n3.reach' hr1).step hs3 e3)
      have hev : evs = ev1 ++ (ev2 ++ ev3) := by
        rw [hl3, hl2, hl1, List.append_assoc, List.append_assoc] at hl
        exact (List.append_cancel_left hl).symm
      have p0 := hr.punctual
      have hs1 : OpSafe envB d.c d.q.walk (.query x.rr.name type (some cb)) := trivial
      have p1 : Punctual d1 T0 := (Later.snoc .nil hs1 e rfl (Nat.le_refl _)).punctual hr.reach p0
      have p2 := np.punctual hr1 p1
      obtain ⟨q0, y, hy, y1, y2, y3, y4⟩ := n3.unasked hr1 (hr.reach.registers hnew e) hno hl1 fun m => hreg (by rw [hev]; simp [m])
      obtain ⟨_, i⟩ := (n3.reach' hr1).idle p2.2.2 (hup p _ d3 ep n3) hs3 hle e3 hy
      have := p0.1
      have := p0.2.1
      have := np.le
      rcases i with ⟨_, _, _, _, _, _, h⟩ | ⟨h, _⟩ <;> omega
    obtain ⟨l, t, hlt⟩ : ∃ l t, askTimes x.rr.name type p = l ++ [t] := by
      rcases List.eq_nil_or_concat (askTimes x.rr.name type p) with h | ⟨l, t, h⟩
      · exact absurd h hask
      · exact ⟨l, t, by rw [h, List.concat_eq_append]⟩
    obtain ⟨r1, y, r2, rfl, hy⟩ := mem_split_filterMap (f := Call.askTime x.rr.name type) (l := p) (b := t) (by
      show t ∈ askTimes x.rr.name type p
      rw [hlt]
      simp)
    obtain ⟨cy, hcy, hyt⟩ := askTime_clock hy
    have hty : t ≤ T0 + 1 := by
      have h1 := (np.clocks y (by simp) cy hcy).2
      have h2 := (nq.clocks (.send now', .sent 0 m' to') (by simp) now' rfl).1
      omega
    generalize hq' : r2 ++ (.send now, .sent 0 m to) :: (.send now', .sent 0 m' to') :: q = q' at *
    have ep' : post = r1 ++ y :: q' := by rw [ep, ← hq']; simp
    obtain ⟨dx, Tx, nx, nx'⟩ := np.split
    have mq : k ∈ q' := by
      have nz := n
      rw [ep', show r1 ++ y :: q' = (r1 ++ [y]) ++ q' by simp] at nz
      rw [ep', show r1 ++ y :: q' = (r1 ++ [y]) ++ q' by simp] at mk
      obtain ⟨dz, Tz, nz1, nz2⟩ := nz.split
      rcases List.mem_append.mp mk with mk | mk
      · have h1 := (nz1.clocks k mk c hc).2
        obtain ⟨dw, Tw, _, _, _, hTz, _⟩ := nz1.last
        rw [hcy] at hTz
        simp only at hTz
        omega
      · exact mk
    obtain ⟨q1, z, q2, dz, cz, ez, nz, hz, hcz, hlz⟩ := hrep r1 y q' t dx ep' nx.calls hy
      (fun b' mb' hb' => absurd hb' (hst r1 (y :: q') dx ep' nx.calls b' mb')) ⟨k, mq, c, hc, by omega⟩
    have epost : post = (r1 ++ y :: q1) ++ z :: q2 := by rw [ep', ez]; simp
    have nn := n.calls
    rw [epost] at nn
    obtain ⟨d6, d7, n6, hs6, e6, _⟩ := Calls.at (o := z.1) (a := z.2) nn
    have := n6.det nz
    subst this
    obtain ⟨b', mb, hsb, _⟩ := (n6.reach' hr1).confirmed hs6 e6 (hup (r1 ++ y :: q1) (z :: q2) _ epost n6)
      (fun w mw => st.life w (by rw [epost]; simp_all)) (fun w mw => hund w (by rw [epost]; simp_all)) hb1 hz hcz
    exact hst ((r1 ++ y :: q1) ++ [z]) q2 d7 (by rw [epost]; simp) (.snoc n6 hs6 e6) b' mb hsb
  · exact ⟨b', I.mem, I.same, I.live⟩

/-! ### Sample -/

namespace Sample

/-- A pointer with a lifetime of twenty seconds, and the daemon that has announced it. -/
def ptr20 : Answer := { ptrBA with ttl := 20 }
def published20 : List Op := [.shared nameA 12 20, .setHost 0 nameBA] ++ sends [101, 103, 105, 107, 109]
def holder20 : D Ptrs := (trace quiet published20 (newD 1 1000 (at_ 100))).2

theorem ptr20_ok : Publishable [0x6C, 0x6F, 0x63, 0x61, 0x6C] ptr20 :=
  ⟨goodA, by decide, by decide, .name nameBA (by decide) rfl goodBA⟩

theorem holder20_has : ∃ x, x.rr = ptr20 ∧
    HasPublished quiet [0x6C, 0x6F, 0x63, 0x61, 0x6C] (trace quiet published20 (newD 1 1000 (at_ 100))).1 holder20 0 x := by
  have hc : Calls quiet (newD 1 1000 (at_ 100)) (trace quiet published20 (newD 1 1000 (at_ 100))).1 holder20 :=
    calls_of (by decide +kernel)
  have hr := hc.hist.reach
  obtain ⟨x, hx, e⟩ := Option.map_eq_some_iff.mp (show (holder20.c.recs 0).map (·.rr) = some ptr20 by decide +kernel)
  have hall : allB holder20 (fun y => decide (y.rr = ptr20)) = true := by decide +kernel
  refine ⟨x, e, {
    hist := hc.hist
    up := by decide +kernel
    plain := by decide +kernel
    fits := fits_of hr (by decide +kernel)
    good := ?_
    cls := by decide +kernel
    frame := by decide +kernel
    has := hx
    wasSet := by
      have : (trace quiet published20 (newD 1 1000 (at_ 100))).1.any (fun k => k.1.sets 0) = true := by decide +kernel
      exact List.any_eq_true.mp this
    probed := by decide +kernel
    announced := by decide +kernel
    live := by rw [e]; decide }⟩
  intro s y hy
  rw [show y.rr = ptr20 from of_decide_eq_true (all_of hr hall hy)]
  exact ptr20_ok

/-- What it sends when it receives a packet, and what that says. -/
def served (m : Out) : Option (List (Out × Addr)) :=
  match mdnsdStep quiet (hearing (at_ 111) m) 5 holder20 with
  | .ok (out, _) => if out.rc = 0 then some out.packets else none
  | _ => none

def packetBuf (m : Out) : RBuf := ⟨(messagePacket m.builder).length, fun i => (messagePacket m.builder).getD i 0⟩

def meant (m : Out) : Option Msg :=
  match messageParse (packetBuf m) structCap with
  | .ok msg => some msg
  | _ => none

def reply (m : Out) : Msg := ((served m).bind fun l => l.head?.bind fun p => meant p.1).getD (ptrMsg 0)

/-- The first question is answered, and the one before the record expires. -/
def abiding : List Op := [.send (at_ 100), .recv (at_ 100) (reply (question (at_ 100) (browser 12))) other] ++ thrice 101 ++ thrice 103 ++
  thrice 105 ++ thrice 107 ++ thrice 109 ++ thrice 111 ++ [.recv (at_ 112) (reply (question (at_ 100) (browser 12))) other] ++
  thrice 113 ++ thrice 115 ++ thrice 117 ++ thrice 119 ++ thrice 121

/-- All known answers are the pointer. -/
def plainB (d : D Ptrs) : Bool :=
  d.c.cls == 1 && d.c.frame == 1000 && (List.range 1009).all fun i => (d.c.cache i).all fun e =>
    decide (e.rr.name = nameA ∧ e.rr.type = 12 ∧ e.rr.ttl < 4294967296 ∧ e.rr.rdname = some nameBA)

theorem plain_of {d : D Ptrs} (h : plainB d = true) : d.c.cls = 1 ∧ d.c.frame = 1000 ∧
    ∀ n t, ∀ y ∈ d.c.listed n t, y.name = nameA ∧ y.type = 12 ∧ y.ttl < 4294967296 ∧ y.rdname = some nameBA := by
  unfold plainB at h
  simp only [Bool.and_eq_true, beq_iff_eq] at h
  obtain ⟨⟨h1, h2⟩, h3⟩ := h
  refine ⟨h1, h2, fun n t y my => ?_⟩
  obtain ⟨e, me, rfl⟩ := List.mem_map.mp (mem_listed_iff.mp my).1
  have hlt : bucket n lprime < 1009 := bucket_lt _ _ (by decide)
  exact of_decide_eq_true (List.all_eq_true.mp (List.all_eq_true.mp h3 _ (List.mem_range.mpr hlt)) e me)

/-- Whether B receives a packet in time. -/
def arrivesB (ops : List Op) (d : D Ptrs) (i t : Nat) (m1 : Out) : Bool :=
  (List.range ops.length).any fun j => decide (i < j) && match (trace quiet ops d).1[j]? with
    | some (.recv now' msg src, _) => decide (now'.sec ≤ t + 2) && meant m1 == some msg && src == other &&
        (trace quiet (ops.take j) d).2.c.addr != #v[10, 0, 0, 9]
    | _ => false

/-- Whether the two are connected. -/
def connectedB (ops : List Op) (d : D Ptrs) : Bool :=
  (List.range ops.length).all fun i => match (trace quiet ops d).1[i]? with
    | some (.send now, .sent _ m _) => !m.asks nameA 12 || (questions m.ops == [(nameA, 12, 1)] && decide (m.len ≤ 1400) &&
        plainB (trace quiet (ops.take i) d).2 && match served m with
          | some l => l.all fun p => p.2.port != 5353 || arrivesB ops d i now.sec p.1
          | none => false)
    | _ => true

theorem split_at {α : Type} {l : List α} {j : Nat} {y : α} (h : l[j]? = some y) : l = l.take j ++ y :: l.drop (j + 1) := by
  obtain ⟨hi, e⟩ := List.getElem?_eq_some_iff.mp h
  rw [← e, List.getElem_cons_drop, List.take_append_drop]

theorem connected_in {ops : List Op} {d : D Ptrs} (hs : safeRunB quiet d ops = true) (h : connectedB ops d = true)
    {x : Rec} {hA : List Call} (ha : HasPublished quiet [0x6C, 0x6F, 0x63, 0x61, 0x6C] hA holder20 0 x) :
    Connected quiet quiet [0x6C, 0x6F, 0x63, 0x61, 0x6C] 0 x d nameA 12 (trace quiet ops d).1 := by
  intro p now ret m to q dp eh np hask
  have hlen := trace_length ops hs
  unfold connectedB at h
  rw [List.all_eq_true] at h
  have hi : p.length < ops.length := by rw [← hlen, eh]; simp
  have h := h p.length (by simp [hi])
  have e1 : (trace quiet ops d).1[p.length]? = some (.send now, .sent ret m to) := by rw [eh]; simp
  rw [e1] at h
  simp only [hask, Bool.not_true, Bool.false_or, Bool.and_eq_true, beq_iff_eq, decide_eq_true_iff] at h
  obtain ⟨⟨⟨hq, hl⟩, hp⟩, hsv⟩ := h
  have n' := calls_take hs p.length
  have : (trace quiet ops d).1.take p.length = p := by rw [eh]; simp
  rw [this] at n'
  rw [n'.det np] at hp
  obtain ⟨p1, p2, p3⟩ := plain_of hp
  have hone : ∀ n t, m.asks n t = true → n = nameA ∧ t = 12 := by
    intro n t h
    unfold Out.asks at h
    rw [Bool.and_eq_true, hq, List.any_eq_true] at h
    obtain ⟨q, mq, hd⟩ := h.2
    rw [List.mem_singleton.mp mq] at hd
    have := of_decide_eq_true hd
    exact ⟨this.1.symm, this.2.symm⟩
  refine ⟨⟨?_, by omega, by omega, hl, ?_, ?_⟩, fun _ => ?_⟩
  · intro n t h
    obtain ⟨rfl, rfl⟩ := hone n t h
    refine ⟨goodA, by decide, fun a m => ?_⟩
    obtain ⟨g1, g2, g3, g4⟩ := p3 _ _ a m
    exact ⟨g2, g3, .typed (.name nameBA (by rw [g2]; decide) g4 goodBA)⟩
  · intro n t h
    obtain ⟨rfl, rfl⟩ := hone n t h
    decide +kernel
  · intro n t y my
    obtain ⟨g1, g2, g3, g4⟩ := p3 n t y my
    unfold Answer.dotted
    rw [g1, g4, show canon nameA = nameA by decide +kernel, show (some nameBA).map canon = some nameBA by decide +kernel, ← g1, ← g4]
  · cases hm : mdnsdStep quiet (hearing (at_ 111) m) 5 holder20 with
    | ok r =>
      obtain ⟨out, a'⟩ := r
      unfold served at hsv
      rw [hm] at hsv
      simp only at hsv
      by_cases hrc : out.rc = 0
      · rw [if_pos hrc] at hsv
        refine ⟨out, ⟨⟨hA, holder20, a', hearing (at_ 111) m, at_ 111, other, 5, ha, ?_, elsewhere (by decide +kernel), rfl, rfl, rfl, rfl,
          fun _ j => show tvdiff (at_ 112) ⟨(at_ 111).sec, (at_ 111).usec + 119⟩ ≤ 0 by decide, hm⟩, hrc⟩, fun m1 to1 mo hto => ?_⟩
        · rw [p1]; decide +kernel
        · have := List.all_eq_true.mp hsv (m1, to1) mo
          simp only [hto, bne_self_eq_false, Bool.false_or] at this
          unfold arrivesB at this
          rw [List.any_eq_true] at this
          obtain ⟨j, mj, h⟩ := this
          rw [Bool.and_eq_true, decide_eq_true_iff] at h
          obtain ⟨hij, h⟩ := h
          split at h
          · rename_i now' msg src ans hy
            simp only [Bool.and_eq_true, decide_eq_true_iff, beq_iff_eq, bne_iff_ne] at h
            obtain ⟨⟨⟨h1, h2⟩, rfl⟩, h4⟩ := h
            have hsplit := split_at hy
            have n := calls_take hs j
            have ep : (trace quiet ops d).1.take j = p ++ (.send now, .sent ret m to) :: (q.take (j - p.length - 1)) := by
              rw [eh, List.take_append]
              have h1 : List.take j p = p := List.take_of_length_le (by omega)
              have h2 : j - p.length = (j - p.length - 1) + 1 := by omega
              rw [h1, h2, List.take_succ_cons]
              simp
            refine ⟨q.take (j - p.length - 1), now', msg, other, ans, (trace quiet ops d).1.drop (j + 1), _, packetBuf m1, ?_, h1,
              holds_self _, ?_, ep ▸ n, elsewhere h4⟩
            · rw [ep] at hsplit
              have hs2 := eh.symm.trans hsplit
              simpa using hs2
            · unfold meant at h2
              split at h2
              · rename_i msg' e'
                cases h2
                exact e'
              · cases h2
          · cases h
      · rw [if_neg hrc] at hsv
        cases hsv
    | ub => unfold served at hsv; rw [hm] at hsv; cases hsv
    | hang => unfold served at hsv; rw [hm] at hsv; cases hsv

end Sample

open Sample in
/-- C87: a record with a lifetime of twenty seconds that is asked for at 100 is known at 121. -/
example : ∃ a d1 d2 x evs post, x.rr = ptr20 ∧ Timed quiet [] (newD 1 1000 (at_ 100)) 100 ∧
    callback (newD 1 1000 (at_ 100)).c.log x.rr.name 12 = none ∧
    Mdns.step quiet (.query x.rr.name 12 (some 7)) (newD 1 1000 (at_ 100)) = .ok (a, d1) ∧ Later quiet d1 100 post d2 121 ∧
    x.rr.dotted = x.rr ∧ typeFits 12 x.rr ∧ (∀ b' ∈ d1.c.listed x.rr.name 12, ¬ SameRec b' x.rr) ∧
    Connected quiet quiet [0x6C, 0x6F, 0x63, 0x61, 0x6C] 0 x d1 x.rr.name 12 post ∧ SameLife x.rr.name 12 20 ([] ++ post) ∧
    Undisturbed x.rr post ∧ Tended 100 post ∧ (∀ p q d', post = p ++ q → Calls quiet d1 p d' → d'.c.shutdown = false) ∧
    d2.c.log = d1.c.log ++ evs ∧ .unregistered x.rr.name 12 ∉ evs ∧ (d2.c.listed nameA 12).map (·.ttl) = [130] := by
  obtain ⟨x, hx, ha⟩ := holder20_has
  obtain ⟨a, e1⟩ : ∃ a, Mdns.step quiet (.query nameA 12 (some 7)) (newD 1 1000 (at_ 100)) = .ok (a, browser 12) :=
    step_of (.new ..) trivial
  have hr1 : Reach quiet (browser 12) := (Reach.new ..).step (o := .query nameA 12 (some 7)) trivial e1
  have hs : safeRunB quiet (browser 12) abiding = true := by decide +kernel
  have n : Later quiet (browser 12) 100 (trace quiet abiding (browser 12)).1 (trace quiet abiding (browser 12)).2 121 :=
    later_in hs (by decide +kernel)
  obtain ⟨ev, hl⟩ := n.calls.log hr1
  have hlog : Event.unregistered nameA 12 ∉ (trace quiet abiding (browser 12)).2.c.log := by decide +kernel
  refine ⟨a, browser 12, (trace quiet abiding (browser 12)).2, x, ev, (trace quiet abiding (browser 12)).1, hx, ⟨1, 1000, at_ 100, by decide, .nil⟩, ?_⟩
  rw [hx]
  exact ⟨by decide +kernel, e1, n, by decide +kernel, .inl rfl,
    fun b' mb => absurd mb (by rw [show (browser 12).c.listed ptr20.name 12 = [] by decide +kernel]; simp),
    connected_in hs (by decide +kernel) ha, by unfold SameLife Resource.answers; decide +kernel,
    by unfold Undisturbed; decide +kernel, tended_in n (by decide +kernel), up_in hs (by decide +kernel), hl,
    fun m => hlog (by rw [hl]; simp only [List.mem_append]; exact .inr m), by decide +kernel⟩

end Mdns
