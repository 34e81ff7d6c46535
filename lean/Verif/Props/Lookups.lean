import Verif.Lemmas.Replies
import Verif.Props.Sweep
import Verif.Props.Receiving

/-!
# C44, C45, C46: lookups, clearing, and where packets go
-/

namespace Mdns

/-! ### Specification -/

/-- A record with this name and type is published. -/
def D.has (d : D Ptrs) (name : Bytes) (type : Nat) : Prop :=
  ∃ r x, d.c.recs r = some x ∧ x.rr.name = name ∧ x.rr.type = type

/-- The records that `mdnsd_record_next` gives one after the other. -/
inductive Iter (d : D Ptrs) : Option Nat → List Nat → Prop
  | nil : Iter d none []
  | cons {r : Nat} {o : Option Nat} {rs : List Nat} (h : recordNext r d = .ok (o, d)) (n : Iter d o rs) :
      Iter d (some r) (r :: rs)

/-! ### Lookups -/

/-- C44: `mdnsd_find` gives a record iff there is one with the name and type, and then one of
these; it changes nothing. -/
theorem C44_find {env : Env} {d : D Ptrs} (h : Reach env d) (name : Bytes) (type : Nat) :
    ∃ o, find name type d = .ok (o, d) ∧ (o.isSome ↔ d.has name type) ∧
      ∀ r, o = some r → ∃ x, d.c.recs r = some x ∧ x.rr.name = name ∧ x.rr.type = type := by
  obtain ⟨c, q⟩ := d
  have i := h.inv.rinv
  have e : find name type ⟨c, q⟩ =
      .ok (((c.published (bucket name sprime)).filter (c.isNamed name type)).head?, ⟨c, q⟩) := by
    unfold find
    rw [M.bind_ok core_ok]
    exact find_go_ok _ (i.pubrec _)
  have key : ∀ r, c.isNamed name type r = true → ∃ x, c.recs r = some x ∧ x.rr.name = name ∧ x.rr.type = type := by
    intro r hr
    unfold Core.isNamed at hr
    split at hr
    · next x hx => exact ⟨x, hx, (of_decide_eq_true hr).2, (of_decide_eq_true hr).1⟩
    · cases hr
  refine ⟨_, e, ⟨fun hs => ?_, ?_⟩, fun r hr => ?_⟩
  · obtain ⟨r, hr⟩ := Option.isSome_iff_exists.mp hs
    have := List.mem_of_head? hr
    exact ⟨r, key r (List.mem_filter.mp this).2⟩
  · rintro ⟨r, x, hx, h1, h2⟩
    have hm : r ∈ (c.published (bucket name sprime)).filter (c.isNamed name type) := by
      refine List.mem_filter.mpr ⟨?_, ?_⟩
      · have := i.mem r x hx
        rw [h1] at this
        exact this
      · change c.recs r = some x at hx
        unfold Core.isNamed
        rw [hx]
        exact decide_eq_true ⟨h2, h1⟩
    cases hh : (c.published (bucket name sprime)).filter (c.isNamed name type) with
    | nil => rw [hh] at hm; cases hm
    | cons => rfl
  · have := List.mem_of_head? hr
    exact key r (List.mem_filter.mp this).2

theorem iter_chain {c : Core} {q : Ptrs} {l : Lists} (i : RInv c l) {b : Nat} : ∀ (suf pre : List Nat),
    c.published b = pre ++ suf → Iter ⟨c, q⟩ suf.head? suf
  | [], _, _ => .nil
  | r :: suf, pre, hp => by
    obtain ⟨x, hx⟩ := i.pubrec b r (by rw [hp]; simp)
    have hb : bucket x.rr.name sprime = b := by
      obtain ⟨y, hy, hb⟩ := i.pub b r (by rw [hp]; simp)
      rw [hx] at hy
      cases hy
      exact hb
    have hnd := i.pnodup b
    rw [hp] at hnd
    refine .cons (o := suf.head?) ?_ (iter_chain (b := b) i suf (pre ++ [r]) (by simp [hp]))
    have e1 : rBehind r (⟨c, q⟩ : D Ptrs) = .ok (suf, ⟨c, q⟩) := by
      unfold rBehind
      rw [M.bind_ok (getRec_ok hx), M.bind_ok core_ok, hb, hp, behind_split (split_nodup hnd).1]
      rfl
    unfold recordNext
    rw [M.bind_ok e1]
    rfl

/-- C44: going from the record that `mdnsd_get_published` gives to the next with
`mdnsd_record_next` until the end, every record with the name is seen exactly once.  So if NULL is
returned there is none.  What is missing: records with other names are seen too, see
`C44_published_counterexample`. -/
theorem C44_published_partial {env : Env} {d : D Ptrs} (h : Reach env d) (name : Bytes) :
    ∃ o rs, getPublished name d = .ok (o, d) ∧ Iter d o rs ∧ rs.Nodup ∧
      (∀ r x, d.c.recs r = some x → x.rr.name = name → r ∈ rs) ∧ ∀ r ∈ rs, ∃ x, d.c.recs r = some x := by
  obtain ⟨c, q⟩ := d
  have i := h.inv.rinv
  refine ⟨_, c.published (bucket name sprime), rfl, iter_chain i _ [] rfl, i.pnodup _, fun r x hx hn => ?_, i.pubrec _⟩
  have := i.mem r x hx
  rw [hn] at this
  exact this

/-- C44: `mdnsd_has_query` says yes if a callback is registered for the name and any type.  What is
missing: it may also say yes if none is, see `C44_has_query_counterexample`. -/
theorem C44_has_query_partial {env : Env} {d : D Ptrs} (h : Reach env d) (name : Bytes) :
    (∃ type cb, callback d.c.log name type = some cb) → d.c.hasQuery name = true := by
  rintro ⟨type, cb, hc⟩
  obtain ⟨q, x, hx, hn, _⟩ := (h.inv.cinv.tcb name type cb).mp hc
  have := (h.inv.cinv.qlive q x hx).1
  rw [hn] at this
  unfold Core.hasQuery
  cases hq : d.c.queries (bucket name sprime) with
  | nil => rw [hq] at this; cases this
  | cons => rfl

/-- C44: without any query it says no. -/
theorem C44_has_query_no {env : Env} {d : D Ptrs} (h : Reach env d) (name : Bytes)
    (hc : ∀ name' type, callback d.c.log name' type = none) : d.c.hasQuery name = false := by
  unfold Core.hasQuery
  cases hq : d.c.queries (bucket name sprime) with
  | nil => rfl
  | cons q =>
    obtain ⟨x, hx, _⟩ := h.inv.cinv.qmem _ q (by rw [hq]; simp)
    have := (h.inv.cinv.tcb x.name x.type x.cb).mpr ⟨q, x, hx, rfl, rfl, rfl⟩
    rw [hc] at this
    cases this

/-! ### Clearing -/

/-- C45: after `records_clear` there is no record, none in a queue and no reply waiting for one;
cache, queries, callbacks called and everything else is as before. -/
theorem C45_clear {env : Env} {d d' : D Ptrs} (h : Reach env d) {a : OpOut} (e : Mdns.step env .clear d = .ok (a, d')) :
    (∀ r, d'.c.recs r = none) ∧ (∀ i, d'.c.published i = []) ∧ (∀ w, d'.q.walk w = []) ∧ d'.c.uanswers = [] ∧
    d'.c = { d.c with recs := fun _ => none, published := fun _ => [], uanswers := [] } := by
  have hd := h.did (o := .clear) trivial e
  have hw : ∀ w, d'.q.walk w = d'.lists.q w := fun _ => rfl
  simp only [hw]
  generalize hc : d'.c = c', d'.lists = l' at hd ⊢
  generalize d.c = c, d.lists = l at hd ⊢
  cases hd with
  | clear n e i z tm =>
    have h1 : c'.recs = fun _ => none := funext n.recs
    have h2 : c'.published = fun _ => [] := funext n.published
    refine ⟨n.recs, n.published, n.queues, n.uanswers, ?_⟩
    have e' : { c'.recfree with publish := c'.publish, pause := c'.pause, probe := c'.probe } =
        { c.recfree with publish := c.publish, pause := c.pause, probe := c.probe } := by
      rw [e, tm.1, tm.2.1, tm.2.2]
    refine Eq.trans ?_ e'
    obtain ⟨⟩ := c'
    simp only [Core.recfree] at h1 h2 ⊢
    have h3 := n.uanswers
    simp only at h3
    subst h1 h2 h3
    rfl

/-! ### Destinations -/

/-- The multicast groups of RFC 6762: 224.0.0.251 and ff02::fb, port 5353. -/
def group : Family → Addr
  | .inet => ⟨.v4 #v[224, 0, 0, 251], 5353⟩
  | .inet6 => ⟨.v6 #v[255, 2, 0, 0, 0, 0, 0, 0, 0, 0, 0, 0, 0, 0, 0, 251], 5353⟩

/-- A question of the packet, from a port other than 5353, is about this record. -/
structure AsksFor (d : D Ptrs) (m : Msg) (src : Addr) (r : Nat) : Prop where
  port : src.port ≠ 5353
  question : ∃ q ∈ m.qd, ∃ x, d.c.recs r = some x ∧ q.about d.c.cls x.rr

/-- C46: a packet goes to the multicast group of the address family set last, with id 0; or it is
the reply to a packet received before from another port, with its id and to its source, and
answers one of its questions. -/
theorem C46_destination {env : Env} {h : List Call} {d d' : D Ptrs} (n : Hist env h d) {now : TV} {ret : Nat} {m : Out}
    {to : Addr} (hs : OpSafe env d.c d.q.walk (.send now)) (e : Mdns.step env (.send now) d = .ok (.sent ret m to, d')) :
    (to = group (familyOf h) ∧ m.id = 0) ∨
    ∃ now' p a r, (Op.recv now' p to, a) ∈ h ∧ AsksFor d p to r ∧ m.id = p.id ∧ ∃ xs : List Nat,
      m.tags = (.an, r) :: xs.map fun r => (.ar, r) := by
  have hd := n.reach.did hs e
  have hf := n.family
  have hr := n.replies
  have hx : ∀ p to r, AsksFor d p to r ↔ to.port ≠ 5353 ∧ ∃ q ∈ p.qd, ∃ x, d.c.recs r = some x ∧ q.about d.c.cls x.rr :=
    fun _ _ _ => ⟨fun h => ⟨h.1, h.2⟩, fun h => ⟨h.1, h.2⟩⟩
  simp only [hx]
  generalize d'.c = c', d'.lists = l' at hd
  generalize d.c = c, d.lists = l at hd hf hr ⊢
  cases hd with
  | send n =>
    rcases n.goes with ⟨_, _, h3, h4⟩ | ⟨u, us, h3, h4, h5, h6, xs, h7⟩
    · exact .inl ⟨by rw [h3, ← hf]; cases c.family <;> rfl, h4⟩
    · obtain ⟨now', p, src, a, mh, k⟩ := hr u (by
        have : c.uanswers = u :: us := h3
        rw [this]
        simp)
      refine .inr ⟨now', p, a, u.r, ?_, ?_, h6.trans k.id, xs, h7⟩
      · rw [h5, k.to]
        exact mh
      · rw [h5, k.to]
        exact ⟨k.port, k.asked⟩

/-- C46: a question from another port about a record is replied to, at the latest after the
replies that were waiting and one for each question, if no record asked about is being probed
without its data being set.  The reply has the id of the query and one record asked about.  What
is missing: if there are several such records only one is sent to the source, see
`C46_several_counterexample`; and service discovery is not replied to, see
`C46_discovery_counterexample`. -/
theorem C46_replied_partial {env : Env} {h : List Call} {d d' : D Ptrs} {now : TV} {m : Msg} {src : Addr}
    (k : Queried env h d now m src d') (hp : src.port ≠ 5353)
    (hu : ∀ q ∈ m.qd, ∀ (r : Nat) (x : Rec), x.Unset d r → ¬ q.about d.c.cls x.rr)
    {q : Question} (mq : q ∈ m.qd) (hq : q.name ≠ discoName) {r : Nat} {x : Rec} (hx : d.c.recs r = some x)
    (ha : q.about d.c.cls x.rr) {h' : List Call} {d'' : D Ptrs} (n : Calls env d' h' d'') (hs : ∀ k ∈ h', k.1.isSend)
    (hl : m.qd.length + d.c.uanswers.length ≤ h'.length) :
    ∃ now' ret p, (Op.send now', OpOut.sent ret p src) ∈ h' ∧ p.id = m.id ∧
      ∃ r' x', (.an, r') ∈ p.tags ∧ d.c.recs r' = some x' ∧ q.about d.c.cls x'.rr := by
  obtain ⟨c1, hloc, hf, n1, hc⟩ := k.run
  have hr := k.hist.reach
  have hr' : Reach env d' := by
    obtain ⟨a, e⟩ := k.done
    exact hr.step (o := .recv now m src) k.wf e
  have er : c1.recs = d.c.recs := hloc.recs
  have hb : NoBare c1 m.qd := by
    intro q mq r x hx ha hb
    rw [er] at hx
    rw [hc] at ha
    exact hu q mq r x ⟨hx, (hr.inv.rinv.probing r x hx).mpr ⟨hb.1, hb.2.1⟩, hb.2.2⟩ ha
  obtain ⟨_, us, hus, hlen⟩ := n1.calm hb
  obtain ⟨r', x', mu, hx', ha'⟩ := n1.reply hb mq hq hp (by rw [er]; exact hx) (by rw [hc]; exact ha)
  rw [er] at hx'
  rw [hc] at ha'
  obtain ⟨i, hi⟩ := List.getElem?_of_mem mu
  have e1 : c1.uanswers = d.c.uanswers := by
    obtain ⟨_, _, _, rfl, _⟩ := hloc
    rfl
  have hlt : i < h'.length := by
    have := (List.getElem?_eq_some_iff.mp hi).1
    rw [hus, e1, List.length_append] at this
    omega
  obtain ⟨now', ret, p, e2, e3, e4⟩ := (n.replied hr' hs).2 i _ hi hlt
  exact ⟨now', ret, p, List.mem_of_getElem? e2, e3, r', x', e4, hx', ha'⟩

/-! ### Concrete cases -/

namespace Sample

/-- A name in the same hash chain as "a.". -/
def twin : Bytes := [109, 97, 46]

/-- C44: two records in one hash chain; each is found. -/
example : Reach quiet (trace quiet [.shared (nm 97) 1 120, .shared twin 1 120] fresh).2 ∧
    bucket twin sprime = bucket (nm 97) sprime ∧
    (∃ d, find (nm 97) 1 (trace quiet [.shared (nm 97) 1 120, .shared twin 1 120] fresh).2 = .ok (some 0, d)) ∧
    (∃ d, find twin 1 (trace quiet [.shared (nm 97) 1 120, .shared twin 1 120] fresh).2 = .ok (some 1, d)) ∧
    ∃ d, find twin 28 (trace quiet [.shared (nm 97) 1 120, .shared twin 1 120] fresh).2 = .ok (none, d) :=
  ⟨reach_of (by decide +kernel), by decide +kernel, ⟨_, rfl⟩, ⟨_, rfl⟩, ⟨_, rfl⟩⟩

/-- C44: a query. -/
example : Reach quiet (trace quiet [.query (nm 97) 12 (some 7)] fresh).2 ∧
    callback (trace quiet [.query (nm 97) 12 (some 7)] fresh).2.c.log (nm 97) 12 = some 7 :=
  ⟨reach_of (by decide +kernel), by decide +kernel⟩

/-- C45: records in use, a reply waiting, something cached. -/
def busy : List Op := [.query (nm 97) 12 (some 7)] ++ service ++
  [.recv (at_ 118) (ptrMsg 120) other, .recv (at_ 120) (ask (nm 99) 12) lone]

example : ∃ d a d', Reach quiet d ∧ d.c.uanswers.length = 1 ∧ (d.c.chain (nm 97)).length = 1 ∧
    (d.q.walk .now ++ d.q.walk .pause ++ d.q.walk .publish).length = 1 ∧ Mdns.step quiet .clear d = .ok (a, d') := by
  have hr : Reach quiet (trace quiet busy fresh).2 := reach_of (by decide +kernel)
  obtain ⟨a, e⟩ := step_of hr (o := .clear) trivial
  exact ⟨_, a, _, hr, by decide +kernel, by decide +kernel, by decide +kernel, e⟩

theorem elsewhere_lone {d : D Ptrs} (h1 : d.c.addr ≠ #v[10, 0, 0, 9]) : Elsewhere quiet d.c lone where
  v4 a e := by cases e; exact h1.symm
  v6 a e := by cases e
  system n l e := by cases e; simp

theorem queried_lone {ops : List Op} {now : TV} {m : Msg} (h0 : safeRunB quiet fresh ops = true)
    (hd : opSafeB (trace quiet ops fresh).2 (.recv now m lone) = true)
    (ha : (trace quiet ops fresh).2.c.addr ≠ #v[10, 0, 0, 9]) (hs : (trace quiet ops fresh).2.c.shutdown = false)
    (hq : m.header.qr = false) : Queried quiet (trace quiet ops fresh).1 (trace quiet ops fresh).2 now m lone
      (trace quiet [.recv now m lone] (trace quiet ops fresh).2).2 := by
  have ho : OpSafe quiet _ _ (.recv now m lone) := opSafeB_sound quiet_keeps hd
  exact ⟨hist_of h0, hs, hq, elsewhere_lone ha, ho, step_of (hist_of h0).reach ho⟩

/-- The packets sent to a destination. -/
def sentTo (to : Addr) (h : List Call) : List Out := h.filterMap fun k => match k.2 with
  | .sent _ m t => if t = to then some m else none
  | _ => none

/-- Two addresses of one host, and nothing to do. -/
def twoAddrs : List Op := [.shared (nm 97) 1 120, .setIp 0 ipA, .shared (nm 97) 1 120, .setIp 1 #v[10, 0, 0, 2]] ++ every 101 4

/-- A query with an id. -/
def ask7 (name : Bytes) (t : Nat) : Msg := { ask name t with id := 7 }

/-- The daemon after a query from `lone`. -/
def heard (ops : List Op) (m : Msg) : D Ptrs := (trace quiet [.recv (at_ 120) m lone] (trace quiet ops fresh).2).2

/-- C46: a packet to one host. -/
example : ∃ h d d' ret m to, Hist quiet h d ∧ OpSafe quiet d.c d.q.walk (.send (at_ 121)) ∧
    Mdns.step quiet (.send (at_ 121)) d = .ok (.sent ret m to, d') ∧ to = lone ∧ m.id = 7 ∧ familyOf h = .inet6 := by
  have hh := hist_of (ops := [.setFamily .inet6] ++ service ++ [.recv (at_ 120) (ask7 (nm 99) 12) lone]) (by decide +kernel)
  obtain ⟨p, e, hp⟩ := any_some (o := sendAt (at_ 121) _) (f := fun p => decide (p.2.2.1 = lone ∧ p.2.1.id = 7))
    (by decide +kernel : (sendAt (at_ 121) (trace quiet ([.setFamily .inet6] ++ service ++
      [.recv (at_ 120) (ask7 (nm 99) 12) lone]) fresh).2).any _ = true)
  exact ⟨_, _, _, _, _, _, hh, .inl quiet_keeps, send_of e, (of_decide_eq_true hp).1, (of_decide_eq_true hp).2,
    by decide +kernel⟩

/-- Whether the question is about the record. -/
def aboutB (q : Question) (d : D Ptrs) (r : Nat) : Bool :=
  match d.c.recs r with
  | some x => decide (q.cls = d.c.cls ∧ x.rr.name = q.name ∧ (q.type = x.rr.type ∨ q.type = 255))
  | none => false

theorem about_of {q : Question} {d : D Ptrs} {r : Nat} (h : aboutB q d r = true) :
    ∃ x, d.c.recs r = some x ∧ q.about d.c.cls x.rr := by
  unfold aboutB at h
  split at h
  · next x hx =>
    have := of_decide_eq_true h
    exact ⟨x, hx, this⟩
  · cases h

theorem sends_of {h : List Call} (e : (h.all fun k => match k.1 with | .send _ => true | _ => false) = true) :
    ∀ k ∈ h, k.1.isSend := by
  intro k m
  have := List.all_eq_true.mp e k m
  split at this
  · next e => rw [e]; trivial
  · cases this

theorem unset_none {d : D Ptrs} (h : d.q.walk .probing = []) (r : Nat) (x : Rec) : ¬ x.Unset d r := fun u => by
  have := u.2.1
  rw [h] at this
  cases this

/-- C46: a query that is replied to. -/
example : ∃ h d d' m q r x h' d'', Queried quiet h d (at_ 120) m lone d' ∧ lone.port ≠ 5353 ∧
    (∀ q ∈ m.qd, ∀ (r : Nat) (x : Rec), x.Unset d r → ¬ q.about d.c.cls x.rr) ∧ q ∈ m.qd ∧ q.name ≠ discoName ∧
    d.c.recs r = some x ∧ q.about d.c.cls x.rr ∧ Calls quiet d' h' d'' ∧ (∀ k ∈ h', k.1.isSend) ∧
    m.qd.length + d.c.uanswers.length ≤ h'.length := by
  have hq := queried_lone (ops := twoAddrs) (now := at_ 120) (m := ask7 (nm 97) 1) (by decide +kernel) (by decide +kernel)
    (by decide +kernel) (by decide +kernel) rfl
  have hc := calls_of (ops := [.send (at_ 121)]) (d := heard twoAddrs (ask7 (nm 97) 1)) (by decide +kernel)
  obtain ⟨x, hx, ha⟩ := about_of (q := ⟨nm 97, 1, 1⟩) (d := (trace quiet twoAddrs fresh).2) (r := 0) (by decide +kernel)
  exact ⟨_, _, _, _, _, _, _, _, _, hq, by decide, fun _ _ r x u => absurd u (unset_none (by decide +kernel) r x),
    by simp [ask7, ask], by decide +kernel, hx, ha, hc, sends_of (by decide +kernel), by decide +kernel⟩

end Sample

open Sample in
/-- C46: the host has two addresses; the source of the query gets only one (`libmdnsd/mdnsd.c:1216`
replies with the first record asked about only).  Later nothing waits any more. -/
theorem C46_several_counterexample : ∃ h d d' m q r r' x x' h' d'', Queried quiet h d (at_ 120) m lone d' ∧ lone.port ≠ 5353 ∧
    q ∈ m.qd ∧ q.name ≠ discoName ∧ d.c.recs r = some x ∧ q.about d.c.cls x.rr ∧ d.c.recs r' = some x' ∧
    q.about d.c.cls x'.rr ∧ Calls quiet d' h' d'' ∧ (∀ w, d''.q.walk w = []) ∧ d''.c.uanswers = [] ∧
    (sentTo lone h').map (·.tags) = [[(.an, r)]] ∧ r' ≠ r := by
  have hq := queried_lone (ops := twoAddrs) (now := at_ 120) (m := ask7 (nm 97) 1) (by decide +kernel) (by decide +kernel)
    (by decide +kernel) (by decide +kernel) rfl
  have hc := calls_of (ops := every 121 3) (d := heard twoAddrs (ask7 (nm 97) 1)) (by decide +kernel)
  obtain ⟨x, hx, ha⟩ := about_of (q := ⟨nm 97, 1, 1⟩) (d := (trace quiet twoAddrs fresh).2) (r := 1) (by decide +kernel)
  obtain ⟨x', hx', ha'⟩ := about_of (q := ⟨nm 97, 1, 1⟩) (d := (trace quiet twoAddrs fresh).2) (r := 0) (by decide +kernel)
  exact ⟨_, _, _, _, _, 1, 0, _, _, _, _, hq, by decide, by simp [ask7, ask], by decide +kernel, hx, ha, hx', ha', hc,
    fun w => by cases w <;> decide +kernel, by decide +kernel, by decide +kernel, by decide⟩

open Sample in
/-- C46: a service enumeration query is not replied to at all, it is answered to everyone only
(`libmdnsd/mdnsd.c:1141-1150`). -/
theorem C46_discovery_counterexample : ∃ h d d' m q r x h' d'', Queried quiet h d (at_ 120) m lone d' ∧ lone.port ≠ 5353 ∧
    q ∈ m.qd ∧ d.c.recs r = some x ∧ q.about d.c.cls x.rr ∧ Calls quiet d' h' d'' ∧ (∀ w, d''.q.walk w = []) ∧
    d''.c.uanswers = [] ∧ sentTo lone h' = [] := by
  have hq := queried_lone (ops := [.shared discoName 12 120, .setHost 0 (nm 97)] ++ every 101 4) (now := at_ 120)
    (m := ask7 discoName 12) (by decide +kernel) (by decide +kernel) (by decide +kernel) (by decide +kernel) rfl
  have hc := calls_of (ops := every 121 3)
    (d := heard ([.shared discoName 12 120, .setHost 0 (nm 97)] ++ every 101 4) (ask7 discoName 12)) (by decide +kernel)
  obtain ⟨x, hx, ha⟩ := about_of (q := ⟨discoName, 12, 1⟩)
    (d := (trace quiet ([.shared discoName 12 120, .setHost 0 (nm 97)] ++ every 101 4) fresh).2) (r := 0) (by decide +kernel)
  exact ⟨_, _, _, _, _, _, _, _, _, hq, by decide, by simp [ask7, ask], hx, ha, hc, fun w => by cases w <;> decide +kernel, by decide +kernel, by decide +kernel⟩

open Sample in
/-- C44: `mdnsd_get_published` gives a record with another name (`libmdnsd/mdnsd.c:1638-1641`
gives the first of the hash chain). -/
theorem C44_published_counterexample : ∃ d : D Ptrs, Reach quiet d ∧ ¬ (∃ t, d.has (nm 97) t) ∧
    getPublished (nm 97) d = .ok (some 0, d) := by
  refine ⟨_, reach_of (ops := [.shared twin 1 120]) (cls := 1) (frame := 1500) (now := at_ 100) (by decide +kernel), ?_, rfl⟩
  rintro ⟨t, r, x, hx, hn, _⟩
  match r with
  | 0 => cases hx; cases hn
  | r + 1 => cases hx

open Sample in
/-- C44: `mdnsd_has_query` says yes although there is no query for the name. -/
theorem C44_has_query_counterexample : ∃ d : D Ptrs, Reach quiet d ∧ (∀ t, callback d.c.log (nm 97) t = none) ∧
    d.c.hasQuery (nm 97) = true := by
  refine ⟨_, reach_of (ops := [.query twin 12 (some 7)]) (cls := 1) (frame := 1500) (now := at_ 100) (by decide +kernel), ?_,
    by decide +kernel⟩
  intro t
  have : (trace quiet [.query twin 12 (some 7)] fresh).2.c.log = [.registered twin 12 7] := by decide +kernel
  show callback (trace quiet [.query twin 12 (some 7)] fresh).2.c.log (nm 97) t = none
  rw [this]
  rfl

end Mdns
