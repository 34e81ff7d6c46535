import Verif.Lemmas.Limits
import Verif.Props.Addresses

/-!
# C39, C40, C58, C59: what is in a packet and how large it is
-/

namespace Mdns

/-! ### Specification -/

/-- The record `r` is an address of the host. -/
def AddressOf (d : D Ptrs) (host : Bytes) (r : Nat) : Prop :=
  ∃ x, d.c.recs r = some x ∧ x.rr.name = host ∧ (x.rr.type = 1 ∨ x.rr.type = 28)

/-- The record `r` is a service record of this name, for a service on this host. -/
def ServiceOn (d : D Ptrs) (name host : Bytes) (r : Nat) : Prop :=
  ∃ x, d.c.recs r = some x ∧ x.rr.name = name ∧ x.rr.type = 33 ∧ x.rr.rdname = some host

/-- The record `r` supplements an answer with the record `r0`: it is an address of the host a
service record names; or the service or text record of the instance a pointer names, or an
address of the host such a service is on. Pointers of the service enumeration
`_services._dns-sd._udp.local.` have no supplements. -/
inductive Supplement (d : D Ptrs) (r0 r : Nat) : Prop
  | address (name host : Bytes) (h0 : ServiceOn d name host r0) (h : AddressOf d host r)
  | service (x0 x : Rec) (n : Bytes) (h0 : d.c.recs r0 = some x0) (t0 : x0.rr.type = 12) (n0 : x0.rr.name ≠ discoName)
      (d0 : x0.rr.rdname = some n) (h : d.c.recs r = some x) (hn : x.rr.name = n) (ht : x.rr.type = 33 ∨ x.rr.type = 16)
  | through (x0 : Rec) (n host : Bytes) (r1 : Nat) (h0 : d.c.recs r0 = some x0) (t0 : x0.rr.type = 12)
      (n0 : x0.rr.name ≠ discoName) (d0 : x0.rr.rdname = some n) (h1 : ServiceOn d n host r1) (h : AddressOf d host r)

/-- The data of a record as it goes in a packet: the calls that write it. -/
inductive WritesData (a : Answer) : List MOp → Prop
  | service (n : Bytes) (h : a.type = 33) (hn : a.rdname = some n) : WritesData a [.b (.srv a.priority a.weight a.port n)]
  | serviceNoHost (h : a.type = 33) (hn : a.rdname = none) : WritesData a [.srvNull a.priority a.weight a.port]
  | name (n : Bytes) (h : a.type ≠ 33) (hn : a.rdname = some n) : WritesData a [.b (.name n)]
  | raw (b : Bytes) (h : a.type ≠ 33) (hn : a.rdname = none) (hd : a.rdata = some b) : WritesData a [.b (.raw b)]
  | v4 (h : a.type ≠ 33) (hn : a.rdname = none) (hd : a.rdata = none) (hi : a.ip ≠ ip4Zero) : WritesData a [.b (.ipv4 a.ip)]
  | v6 (h : a.type ≠ 33) (hn : a.rdname = none) (hd : a.rdata = none) (hi : a.ip = ip4Zero) (hj : a.ip6 ≠ ip6Zero) :
      WritesData a [.b (.ipv6 a.ip6)]
  | empty (h : a.type ≠ 33) (hn : a.rdname = none) (hd : a.rdata = none) (hi : a.ip = ip4Zero) (hj : a.ip6 = ip6Zero) :
      WritesData a []

/-- The entry is the record as it is, with the cache-flush bit if wanted. -/
structure EntryOf (cls : Nat) (x : Rec) (flush : Bool) (e : PEntry) : Prop where
  name : e.name = x.rr.name
  type : e.type = x.rr.type
  ttl : e.ttl = x.rr.ttl
  cls : e.cls = if flush then cls + 32768 else cls
  data : WritesData x.rr e.data

/-! ### Proofs -/

theorem writesData_aCopy (a : Answer) : WritesData a (aCopy a) := by
  unfold aCopy
  by_cases h : a.type = 33
  · rw [if_pos h]
    split
    · exact .service _ h ‹_›
    · exact .serviceNoHost h ‹_›
  · rw [if_neg h]
    split
    · exact .name _ h ‹_›
    · exact .raw _ h ‹_› ‹_›
    · split
      · exact .v4 h ‹_› ‹_› ‹_›
      · rename_i hi
        have hi : a.ip = ip4Zero := Classical.not_not.mp hi
        split
        · exact .v6 h ‹_› ‹_› hi ‹_›
        · exact .empty h ‹_› ‹_› hi (Classical.not_not.mp ‹_›)

theorem supplement_of {d d' : D Ptrs} {c' : Core} (k : Kept d.c c') (e : c' = d'.c) {r0 r : Nat} (h : Extra d'.c r0 r) :
    Supplement d r0 r := by
  subst e
  have back : ∀ r x, d'.c.recs r = some x → ∃ x0, d.c.recs r = some x0 ∧ x.rr = x0.rr := by
    intro r x hx
    obtain ⟨x0, h1, h2, _⟩ := k.2 r x hx
    exact ⟨x0, h1, h2⟩
  have addr : ∀ h, IsAddr d'.c h r → AddressOf d h r := by
    rintro h ⟨x, hx, h1, h2⟩
    obtain ⟨y, hy, e⟩ := back r x hx
    exact ⟨y, hy, e ▸ h1, e ▸ h2⟩
  obtain ⟨x0, hx0, h⟩ := h
  obtain ⟨y0, hy0, e0⟩ := back r0 x0 hx0
  rw [e0] at h
  rcases h with ⟨ht, n, hn, ha⟩ | ⟨ht, hd, n, hn, h⟩
  · exact .address _ n ⟨y0, hy0, rfl, ht, hn⟩ (addr n ha)
  · rcases h with ⟨x, hx, h1, h2⟩ | ⟨r1, x1, n', hx1, h1, h2, h3, ha⟩
    · obtain ⟨y, hy, e⟩ := back r x hx
      rw [e] at h1 h2
      exact .service y0 y n hy0 ht hd hn hy h1 h2
    · obtain ⟨y1, hy1, e1⟩ := back r1 x1 hx1
      rw [e1] at h1 h2 h3
      exact .through y0 n n' r1 hy0 ht hd hn ⟨y1, hy1, h1, h2, h3⟩ (addr n' ha)

theorem extra_of {d : D Ptrs} {r0 r : Nat} (h : Supplement d r0 r) : Extra d.c r0 r := by
  cases h with
  | address name host h0 h =>
    obtain ⟨x0, h1, _, h2, h3⟩ := h0
    exact ⟨x0, h1, .inl ⟨h2, host, h3, h⟩⟩
  | service x0 x n h0 t0 n0 d0 h hn ht => exact ⟨x0, h0, .inr ⟨t0, n0, n, d0, .inl ⟨x, h, hn, ht⟩⟩⟩
  | through x0 n host r1 h0 t0 n0 d0 h1 h =>
    obtain ⟨x1, h1, h2, h3, h4⟩ := h1
    exact ⟨x0, h0, .inr ⟨t0, n0, n, d0, .inr ⟨r1, x1, host, h1, h2, h3, h4, h⟩⟩⟩

/-! ### C59 -/

/-- C59: the records of a packet are sent as they are when the packet is made: with their name,
type, lifetime and data. The cache-flush bit is set for the unique records, in the answers to
everyone and among the additional records, and in no other place. (A packet without records of
this host has questions with known answers only, see C27.) -/
theorem C59_entries {env : Env} {d d' : D Ptrs} (h : Reach env d) {now : TV} {ret : Nat} {m : Out} {to : Addr}
    (hs : OpSafe env d.c d.q.walk (.send now)) (e : Mdns.step env (.send now) d = .ok (.sent ret m to, d'))
    (ht : m.tags ≠ []) :
    (entries m.ops).length = m.tags.length ∧
    ∀ (i : Nat) (t : Section × Nat) (p : PEntry), m.tags[i]? = some t → (entries m.ops)[i]? = some p →
      ∃ x, d.c.recs t.2 = some x ∧ p.sec = t.1 ∧
        EntryOf d.c.cls x (decide (x.unique ≠ 0 ∧ (t.1 = .ar ∨ (t.1 = .an ∧ to.port = 5353)))) p := by
  rcases packet_entries h hs e with h1 | ⟨h1, h2⟩
  · exact absurd h1 ht
  · refine ⟨by rw [h1, List.length_map], fun i t p ht hp => ?_⟩
    rw [h1, List.getElem?_map, ht] at hp
    obtain ⟨x, hx⟩ := h2 t (List.mem_of_getElem? ht)
    refine ⟨x, hx, ?_⟩
    unfold Core.entry at hp
    rw [Option.map_some, hx] at hp
    cases hp
    refine ⟨rfl, ⟨rfl, rfl, rfl, ?_, writesData_aCopy _⟩⟩
    simp only [beq_iff_eq, Rec.cls]
    by_cases hu : x.unique = 0
    · simp [hu]
    · simp only [hu, ne_eq, not_false_eq_true, if_true, true_and, decide_eq_true_eq]

/-! ### C39 -/

/-- C39: no record is twice among the answers of a packet. -/
theorem C39_answers_distinct {env : Env} {d d' : D Ptrs} (h : Reach env d) {now : TV} {ret : Nat} {m : Out} {to : Addr}
    (hs : OpSafe env d.c d.q.walk (.send now)) (e : Mdns.step env (.send now) d = .ok (.sent ret m to, d')) :
    (m.tags.filter fun t => t.1 = .an).Nodup := by
  cases h.did hs e with
  | send n => exact (n.nodup (h.inv.rinv.congr rfl rfl rfl)).1

/-- C39: no record is twice in a packet with up to 64 records. For more than 64 it is not true, see
`C39_crowded_counterexample`. -/
theorem C39_no_repeat_partial {env : Env} {d d' : D Ptrs} (h : Reach env d) {now : TV} {ret : Nat} {m : Out} {to : Addr}
    (hs : OpSafe env d.c d.q.walk (.send now)) (e : Mdns.step env (.send now) d = .ok (.sent ret m to, d'))
    (hl : m.tags.length ≤ 64) : (m.tags.map (·.2)).Nodup := by
  cases h.did hs e with
  | send n => exact (n.nodup (h.inv.rinv.congr rfl rfl rfl)).2 hl

/-- C39: every additional record supplements one of the answers. -/
theorem C39_supplement {env : Env} {d d' : D Ptrs} (h : Reach env d) {now : TV} {ret : Nat} {m : Out} {to : Addr}
    (hs : OpSafe env d.c d.q.walk (.send now)) (e : Mdns.step env (.send now) d = .ok (.sent ret m to, d')) {r : Nat}
    (hr : (.ar, r) ∈ m.tags) : ∃ r0, (.an, r0) ∈ m.tags ∧ Supplement d r0 r := by
  cases h.did hs e with
  | send n =>
    obtain ⟨r0, h0, h1⟩ := n.extra hr
    have k := n.kept
    exact ⟨r0, h0, supplement_of (d := d) (d' := d') ⟨k.1, k.2⟩ rfl h1⟩

/-! ### C58 -/

/-- C58: every record that supplements an answer is in the packet, as an answer or as an
additional record, unless there is no room for it: the packet and the data of the record
together, with at most 38 bytes more, reach the frame size. For packets with up to 64 answers,
when not shutting down; otherwise it is not true, see `C58_crowded_counterexample` and
`C58_parting_counterexample`. -/
theorem C58_supplements_sent_partial {env : Env} {d d' : D Ptrs} (h : Reach env d) {now : TV} {ret : Nat} {m : Out} {to : Addr}
    (hs : OpSafe env d.c d.q.walk (.send now)) (e : Mdns.step env (.send now) d = .ok (.sent ret m to, d'))
    (hsd : d.c.shutdown = false) (hl : (m.tags.filter fun t => t.1 = .an).length ≤ 64) {r0 r : Nat}
    (h0 : (.an, r0) ∈ m.tags) (hr : Supplement d' r0 r) :
    (.an, r) ∈ m.tags ∨ (.ar, r) ∈ m.tags ∨
      ∃ x, d'.c.recs r = some x ∧
        d'.c.frame ≤ packetLen m.builder + (x.rr.rdata.getD []).length + (x.rr.rdname.getD []).length + 38 := by
  have hx : ∃ x, d'.c.recs r = some x := by
    cases hr with
    | address _ _ _ h => obtain ⟨x, hx, _⟩ := h; exact ⟨x, hx⟩
    | service _ x _ _ _ _ _ hx => exact ⟨x, hx⟩
    | through _ _ _ _ _ _ _ _ _ h => obtain ⟨x, hx, _⟩ := h; exact ⟨x, hx⟩
  obtain ⟨x, hx⟩ := hx
  cases h.did hs e with
  | send n =>
    rcases n.full hsd hl h0 (extra_of hr) with h | h | h
    · exact .inl h
    · exact .inr (.inl h)
    · refine .inr (.inr ⟨x, hx, Nat.le_trans (h x hx) ?_⟩)
      unfold rrLen Out.len
      split <;> split <;> split <;> omega

/-! ### C40 -/

theorem OutMsg.nouni {env : Env} {c : Core} {l : Lists} {ret : Nat} {m : Out} {to : Addr} {c' : Core} {l' : Lists}
    (n : OutMsg env c l ret m to c' l') (hm : to.port = 5353) (hu : ∀ u ∈ c.uanswers, u.to.port ≠ 5353) :
    c.uanswers = [] := by
  cases n with
  | unicast h => exact absurd hm (hu _ (by rw [h]; simp))
  | shutdown h => exact h
  | normal h => exact h

/-- C40: a response for everyone exceeds the frame size by less than 262 bytes. That it does not
exceed the frame size is not true, see `C40_frame_counterexample`. -/
theorem C40_response_partial {env : Env} {d d' : D Ptrs} (h : Reach env d) {now : TV} {ret : Nat} {m : Out} {to : Addr}
    (hs : OpSafe env d.c d.q.walk (.send now)) (e : Mdns.step env (.send now) d = .ok (.sent ret m to, d'))
    (hm : to.port = 5353) (hq : m.qr = true) : packetLen m.builder < d.c.frame + 262 := by
  cases h.did hs e with
  | send n =>
    have hu : d.c.uanswers = [] := n.nouni hm h.uni
    have := n.response_size hu hq
    unfold Out.len at this
    simp only at this
    omega

/-- C40: no packet overruns the message buffer of 65535 bytes, as long as the frame size and the
numbers of records being probed and of queries are not too large. Without such a limit it is
not true, see `C40_overrun_counterexample`. -/
theorem C40_no_overrun_partial {env : Env} {d d' : D Ptrs} (h : Reach env d) {now : TV} {ret : Nat} {m : Out} {to : Addr}
    (hs : OpSafe env d.c d.q.walk (.send now)) (e : Mdns.step env (.send now) d = .ok (.sent ret m to, d'))
    (hl : max (d.c.frame + 262) 4624 + 788 * (d.q.walk .probing).length + 260 * d.c.qlist.length ≤ 65535) :
    packetLen m.builder ≤ 65535 := by
  cases h.did hs e with
  | send n => exact Nat.le_trans n.size hl

/-! ### Examples -/

namespace Sample

/-- A service instance on a host, with a pointer to it. -/
def service : List Op := [.shared (nm 97) 1 120, .setIp 0 ipA, .shared (nm 98) 33 120, .setSrv 1 0 0 80 (nm 97),
  .shared (nm 98) 16 120, .setRaw 2 [0], .shared (nm 99) 12 120, .setHost 3 (nm 98)] ++ every 101 4

/-- A question for the pointer. -/
def asked : List Op := service ++ [.recv (at_ 120) (ask (nm 99) 12) lone]

def tagsAt (env : Env) (now : TV) (d : D Ptrs) : List (Section × Nat) :=
  match Mdns.step env (.send now) d with
  | .ok (.sent _ m _, _) => m.tags
  | _ => []

theorem sent_of {d : D Ptrs} (hr : Reach quiet d) (now : TV) :
    ∃ ret m to d', Mdns.step quiet (.send now) d = .ok (.sent ret m to, d') ∧ OpSafe quiet d.c d.q.walk (.send now) ∧
      tagsAt quiet now d = m.tags := by
  have hs : OpSafe quiet d.c d.q.walk (.send now) := .inl quiet_keeps
  obtain ⟨a, e⟩ := step_of hr hs
  have hd := hr.did hs e
  generalize (trace quiet [.send now] d).2 = d' at e hd
  generalize d'.c = c', d'.lists = l' at hd
  cases hd with
  | send n => exact ⟨_, _, _, _, e, hs, by unfold tagsAt; rw [e]⟩

/-- C39, C58, C59: the answer to the question for the pointer comes with the service, its text
and the address. -/
example : ∃ ret m to d', Reach quiet (trace quiet asked fresh).2 ∧
    OpSafe quiet (trace quiet asked fresh).2.c (trace quiet asked fresh).2.q.walk (.send (at_ 121)) ∧
    Mdns.step quiet (.send (at_ 121)) (trace quiet asked fresh).2 = .ok (.sent ret m to, d') ∧
    (trace quiet asked fresh).2.c.shutdown = false ∧ m.tags = [(.an, 3), (.ar, 2), (.ar, 1), (.ar, 0)] := by
  have hr := (hist_of (ops := asked) (by decide +kernel)).reach
  obtain ⟨ret, m, to, d', e, hs, ht⟩ := sent_of hr (at_ 121)
  exact ⟨ret, m, to, d', hr, hs, e, by decide +kernel, ht ▸ by decide +kernel⟩

/-- C40: the limit is met by far. -/
example : max ((trace quiet host fresh).2.c.frame + 262) 4624 +
    788 * ((trace quiet host fresh).2.q.walk .probing).length + 260 * (trace quiet host fresh).2.c.qlist.length ≤ 65535 := by
  decide +kernel

/-- A name of 40 bytes. -/
def name40 : Bytes := List.replicate 39 97 ++ [46]

/-- C40: a response for everyone that is larger than the frame size. -/
def wide : List Op := [.shared name40 1 120, .setIp 0 ipA]

theorem reach_of {ops : List Op} {cls frame : Nat} {now : TV} (h : safeRunB quiet (newD cls frame now) ops = true) :
    Reach quiet (trace quiet ops (newD cls frame now)).2 := (calls_of h).hist.reach

/-- Whether the packet is a response for everyone that is larger than the frame size. -/
def exceeds (env : Env) (now : TV) (d : D Ptrs) : Bool :=
  match Mdns.step env (.send now) d with
  | .ok (.sent _ m to, _) => to.port == 5353 && m.qr && decide (d.c.frame < packetLen m.builder)
  | _ => false

end Sample

/-! ### Counterexamples -/

open Sample in
/-- C40: a response for everyone may be larger than the frame size: the estimate of the size of a
record leaves out its name (`libmdnsd/mdnsd.c:179-195`). -/
theorem C40_frame_counterexample : ∃ d d' now ret m to, Reach quiet d ∧
    Mdns.step quiet (.send now) d = .ok (.sent ret m to, d') ∧ to.port = 5353 ∧ m.qr = true ∧
    d.c.frame < packetLen m.builder := by
  have hr : Reach quiet (trace quiet wide (newD 1 50 (at_ 100))).2 := reach_of (by decide +kernel)
  obtain ⟨ret, m, to, d', e, _, _⟩ := sent_of hr (at_ 101)
  have h : exceeds quiet (at_ 101) (trace quiet wide (newD 1 50 (at_ 100))).2 = true := by decide +kernel
  unfold exceeds at h
  rw [e] at h
  simp only [Bool.and_eq_true, beq_iff_eq, decide_eq_true_eq] at h
  exact ⟨_, d', _, ret, m, to, hr, e, h.1.1, h.1.2, h.2⟩

/-! #### Probes -/

theorem ProbeB.count {pre suf : List Nat} {s t : OSt} (n : ProbeB pre suf s t) :
    t.m.tags.length = s.m.tags.length + suf.length := by
  induction n with
  | done => rfl
  | @propose pre suf s t r x _ _ hx _ _ ih =>
    rw [ih]
    show (s.m.put .ns r x.rr s.c.cls).tags.length + suf.length = _
    rw [put_tags]
    simp
    omega

/-- So many records, all new and to be probed. -/
structure AllProbed (d : D Ptrs) (n : Nat) : Prop where
  uans : d.c.uanswers = []
  shutdown : d.c.shutdown = false
  empty : ∀ w, w ≠ .probing → d.q.walk w = []
  count : (d.q.walk .probing).length = n
  new : ∀ r x, d.c.recs r = some x → x.unique ≠ 4
  due : tvdiff d.c.now d.c.probe ≤ 0

open Sample in
theorem probed : ∀ n, ∃ d, Reach quiet d ∧ AllProbed d n
  | 0 => ⟨newD 1 1500 (at_ 100), .new .., by
      have hr : Reach quiet (newD 1 1500 (at_ 100)) := .new ..
      refine ⟨rfl, rfl, ?_, rfl, ?_, by decide⟩
      · intro w _
        cases w <;> rfl
      · intro r x hx
        cases hx⟩
  | n + 1 => by
    obtain ⟨d, hr, hp⟩ := probed n
    have hs : OpSafe quiet d.c d.q.walk (.unique (nm 97) 1 120 (some 1)) := rfl
    obtain ⟨a, e⟩ := step_of hr hs
    have hr' := hr.step hs e
    have hd := hr.did hs e
    generalize (trace quiet [.unique (nm 97) 1 120 (some 1)] d).2 = d' at e hd hr'
    refine ⟨d', hr', ?_⟩
    have hq : ∀ w, d'.q.walk w = d'.lists.q w := fun _ => rfl
    have h1 := hp.empty
    have h2 := hp.count
    have hq0 : ∀ w, d.q.walk w = d.lists.q w := fun _ => rfl
    simp only [hq0] at h1 h2
    suffices h : d'.c.uanswers = [] ∧ d'.c.shutdown = false ∧ (∀ w, w ≠ .probing → d'.lists.q w = []) ∧
        (d'.lists.q .probing).length = n + 1 ∧ (∀ r x, d'.c.recs r = some x → x.unique ≠ 4) ∧
        tvdiff d'.c.now d'.c.probe ≤ 0 from ⟨h.1, h.2.1, h.2.2.1, h.2.2.2.1, h.2.2.2.2.1, h.2.2.2.2.2⟩
    generalize d'.c = c', d'.lists = l' at hd ⊢
    cases hd with
    | unique =>
      refine ⟨hp.uans, hp.shutdown, ?_, ?_, ?_, ?_⟩
      · intro w hw
        unfold Lists.fresh
        simp only [hw, and_false, if_false]
        exact h1 w hw
      · unfold Lists.fresh
        simp only [and_self, if_true, List.length_cons, h2]
      · intro r x hx
        have hx : upd d.c.recs d.lists.size (some (uniqueRec (nm 97) 1 120 (some 1))) r = some x := hx
        by_cases er : r = d.lists.size
        · subst er
          rw [upd_same] at hx
          cases hx
          simp [uniqueRec]
        · rw [upd_other _ _ _ _ er] at hx
          exact hp.new r x hx
      · show tvdiff d.c.now d.c.now ≤ 0
        unfold tvdiff
        omega

open Sample in
/-- C40: packets with probes have no limit: for every size there is a larger one, so that the message
buffer of 65535 bytes is overrun (`libmdnsd/mdnsd.c:1336-1379` has no check of the size). -/
theorem C40_overrun_counterexample (N : Nat) : ∃ d d' now ret m to, Reach quiet d ∧
    OpSafe quiet d.c d.q.walk (.send now) ∧ Mdns.step quiet (.send now) d = .ok (.sent ret m to, d') ∧
    N < packetLen m.builder := by
  obtain ⟨d, hr, hp⟩ := probed (N + 1)
  obtain ⟨ret, m, to, d', e, hs, _⟩ := sent_of hr d.c.now
  refine ⟨d, d', d.c.now, ret, m, to, hr, hs, e, ?_⟩
  have hd := hr.did hs e
  have h1 := hp.empty
  have h2 := hp.count
  have hq0 : ∀ w, d.q.walk w = d.lists.q w := fun _ => rfl
  simp only [hq0] at h1 h2
  generalize d'.c = c', d'.lists = l' at hd
  cases hd with
  | send n =>
    have hne : d.lists.q .probing ≠ [] := by
      intro h
      rw [h] at h2
      cases h2
    cases n with
    | unicast hu => have := hp.uans.symm.trans hu; cases this
    | shutdown _ _ _ hs => rw [show d.c.shutdown = false from hp.shutdown] at hs; cases hs
    | @normal s1 s2 _ _ _ _ hu n1 n2 hs n3 =>
      have e1 : s1 = ⟨{ d.c with now := d.c.now }, d.lists, {}, [], 0⟩ := by
        cases n1 with
        | empty => rfl
        | full => rfl
        | skip _ hq => rw [show d.lists.q .now = [] from h1 .now (by simp)] at hq; cases hq
        | send _ hq => rw [show d.lists.q .now = [] from h1 .now (by simp)] at hq; cases hq
        | bye _ hq => rw [show d.lists.q .now = [] from h1 .now (by simp)] at hq; cases hq
      subst e1
      have e2 : s2 = ⟨{ d.c with now := d.c.now }, d.lists, {}, [], 0⟩ := by
        cases n2 with
        | no => rfl
        | yes hq => exact absurd hq hne
      subst e2
      have key : ∀ s3, PauseOpt ⟨{ d.c with now := d.c.now }, d.lists, {}, [], 0⟩ s3 →
          s3 = ⟨{ d.c with now := d.c.now }, d.lists, {}, [], 0⟩ := by
        intro s3 np
        cases np with
        | no => rfl
        | yes hq => exact absurd (h1 .pause (by simp)) hq
      have pr : ∀ m0 s4, ProbeOpt ⟨{ d.c with now := d.c.now }, d.lists, m0, [], 0⟩ s4 →
          s4.m.tags.length = m0.tags.length + (N + 1) := by
        intro m0 s4 nb
        cases nb with
        | no _ hn => exact absurd ⟨hne, hp.due⟩ hn
        | @yes u t _ _ na nb =>
          have := na.shrink.2 fun r _ x hx => hp.new r x hx
          show t.m.tags.length = _
          rw [nb.count, na.tags.1, this]
          exact congrArg _ h2
      cases n3 with
      | answers np na hr0 =>
        have := key _ np
        subst this
        exact absurd rfl hr0
      | @probes s3 s4 m0 seen np na hr0 nb hr2 =>
        have := key _ np
        subst this
        have := na.none
        subst this
        have h3 := pr _ _ nb
        have hm : OMade d.c ⟨{ d.c with now := d.c.now }, d.lists, { ({} : Out) with qr := false, aa := false }, [], 0⟩ :=
          ⟨Kept.refl d.c, rfl, by simp⟩
        have h4 := (nb.made hm).made.size
        have h5 : ({ ({} : Out) with qr := false, aa := false } : Out).tags.length = 0 := rfl
        unfold Out.len at h4
        omega
      | @questions s3 s4 m0 seen _ _ _ _ np na hr0 nb hr2 nq ng =>
        have := key _ np
        subst this
        have := na.none
        subst this
        have h3 := pr _ _ nb
        obtain ⟨rs, _, h4, h5⟩ := nb.tags
        have h4 : s4.m.tags = [] ++ rs.map fun r => (.ns, r) := h4
        have h5 : s4.ret = 0 + rs.length := h5
        rw [h4] at h3
        simp at h3
        omega

/-! #### More than 64 records -/

/-- Announcements when everything fits. -/
theorem PubL.wide {pre suf : List Nat} {s t : OSt} (n : PubL pre suf s t)
    (hb : ∀ r x, s.c.recs r = some x → rrLen x.rr + x.rr.name.length ≤ 60 ∧ x.rr.ttl ≠ 0)
    (hf : s.m.len + 100 * suf.length < s.c.frame) :
    t.m.tags = s.m.tags ++ suf.map (fun r => (.an, r)) ∧ t.seen = suf.foldl answeredAdd s.seen ∧
      t.m.len ≤ s.m.len + 100 * suf.length ∧ t.ret = s.ret + suf.length ∧
      ∀ r x, s.c.recs r = some x → ∃ y, t.c.recs r = some y ∧ y.rr = x.rr := by
  have go : ∀ {s t : OSt} {r : Nat} {x : Rec} {suf : List Nat} {l : Lists}, s.c.recs r = some x →
      ((∀ r' y, (s.c.announced r x).recs r' = some y → rrLen y.rr + y.rr.name.length ≤ 60 ∧ y.rr.ttl ≠ 0) →
        (s.m.put .an r x.rr (x.cls s.c.cls)).len + 100 * suf.length < s.c.frame →
        t.m.tags = (s.m.put .an r x.rr (x.cls s.c.cls)).tags ++ suf.map (fun r => (.an, r)) ∧
          t.seen = suf.foldl answeredAdd (answeredAdd s.seen r) ∧
          t.m.len ≤ (s.m.put .an r x.rr (x.cls s.c.cls)).len + 100 * suf.length ∧ t.ret = s.ret + 1 + suf.length ∧
          ∀ r' y, (s.c.announced r x).recs r' = some y → ∃ z, t.c.recs r' = some z ∧ z.rr = y.rr) →
      (∀ r x, s.c.recs r = some x → rrLen x.rr + x.rr.name.length ≤ 60 ∧ x.rr.ttl ≠ 0) →
      s.m.len + 100 * (r :: suf).length < s.c.frame →
      t.m.tags = s.m.tags ++ (r :: suf).map (fun r => (.an, r)) ∧ t.seen = (r :: suf).foldl answeredAdd s.seen ∧
        t.m.len ≤ s.m.len + 100 * (r :: suf).length ∧ t.ret = s.ret + (r :: suf).length ∧
        ∀ r x, s.c.recs r = some x → ∃ y, t.c.recs r = some y ∧ y.rr = x.rr := by
    intro s t r x suf l hx ih hb hf
    have h1 := (Out.put_over s.m .an r x.rr (x.cls s.c.cls)).2
    have h2 := hb r x hx
    rw [List.length_cons] at hf ⊢
    have fw : ∀ r' y, s.c.recs r' = some y → ∃ z, (s.c.announced r x).recs r' = some z ∧ z.rr = y.rr := by
      intro r' y hy
      show ∃ z, upd s.c.recs r _ r' = some z ∧ _
      by_cases e : r' = r
      · subst e
        rw [hx] at hy
        cases hy
        rw [upd_same]
        exact ⟨_, rfl, rfl⟩
      · rw [upd_other _ _ _ _ e]
        exact ⟨y, hy, rfl⟩
    have bw : ∀ r' y, (s.c.announced r x).recs r' = some y → rrLen y.rr + y.rr.name.length ≤ 60 ∧ y.rr.ttl ≠ 0 := by
      intro r' y hy
      have hy : upd s.c.recs r (some { x with tries := x.tries + 1, lastSent := s.c.now }) r' = some y := hy
      by_cases e : r' = r
      · subst e
        rw [upd_same] at hy
        cases hy
        exact h2
      · rw [upd_other _ _ _ _ e] at hy
        exact hb r' y hy
    obtain ⟨e1, e2, e3, e4, e5⟩ := ih bw (by omega)
    refine ⟨?_, e2, by omega, by omega, ?_⟩
    · rw [e1, put_tags]
      simp
    · intro r' y hy
      obtain ⟨z, hz, ez⟩ := fw r' y hy
      obtain ⟨w, hw, ew⟩ := e5 r' z hz
      exact ⟨w, hw, ew.trans ez⟩
  induction n with
  | done => exact ⟨by simp, rfl, by simp, rfl, fun r x hx => ⟨x, hx, rfl⟩⟩
  | full _ _ hx hn =>
    have := (hb _ _ hx).1
    rw [List.length_cons] at hf
    omega
  | @keep pre suf s t r x _ _ hx _ _ _ _ ih => exact go (l := s.l) hx ih hb hf
  | @last pre suf s t r x _ _ hx _ _ _ _ ih => exact go (l := s.l) hx ih hb hf
  | bye _ _ hx _ ht => exact absurd ht (hb _ _ hx).2

namespace Sample

/-- A service on a host with 65 addresses. -/
def crowd : List Op := [.setAddresses [46] ((List.range 65).map fun i => #v[10, 0, 1, UInt8.ofNat i]), .shared [46] 33 120,
  .setSrv 65 0 0 80 [46]]

def crowded : D Ptrs := (trace quiet crowd (newD 1 9000 (at_ 100))).2

/-- What is needed about the state. -/
def crowdedB (d : D Ptrs) : Bool :=
  d.c.uanswers.isEmpty && d.q.size == 66 && !d.c.shutdown && d.q.walk .now == [] && d.q.walk .pause == [] && d.q.walk .probing == [] &&
    d.q.walk .publish == (List.range 66).reverse && d.c.frame == 9000 && decide (tvdiff (at_ 101) d.c.publish ≤ 0) &&
    allB d (fun x => decide (rrLen x.rr + x.rr.name.length ≤ 60 ∧ x.rr.ttl ≠ 0)) &&
    (d.c.recs 65).any (fun x => x.rr.type == 33 && x.rr.rdname == some [46]) &&
    (d.c.recs 0).any (fun x => x.rr.type == 1 && x.rr.name == [46])

theorem crowded_ok : crowdedB crowded = true := by decide +kernel

end Sample

open Sample in
/-- C39: in a packet with more than 64 records, a record may be in both the answers and the
additional records: only 64 records are remembered as being in the packet
(`libmdnsd/mdnsd.c:692-702`). -/
theorem C39_crowded_counterexample : ∃ d d' now ret m to r, Reach quiet d ∧
    OpSafe quiet d.c d.q.walk (.send now) ∧ Mdns.step quiet (.send now) d = .ok (.sent ret m to, d') ∧
    (.an, r) ∈ m.tags ∧ (.ar, r) ∈ m.tags := by
  have hr : Reach quiet crowded := reach_of (by decide +kernel)
  have hc := crowded_ok
  generalize crowded = d at hr hc
  obtain ⟨ret, m, to, d', e, hs, _⟩ := sent_of hr (at_ 101)
  suffices h : ∃ r, (.an, r) ∈ m.tags ∧ (.ar, r) ∈ m.tags by
    obtain ⟨r, h⟩ := h
    exact ⟨d, d', at_ 101, ret, m, to, r, hr, hs, e, h⟩
  have hd := hr.did hs e
  unfold crowdedB at hc
  simp only [Bool.and_eq_true, beq_iff_eq, decide_eq_true_eq, List.isEmpty_iff, Bool.not_eq_true'] at hc
  obtain ⟨⟨⟨⟨⟨⟨⟨⟨⟨⟨⟨h1, h0⟩, h2⟩, h3⟩, h4⟩, h5⟩, h6⟩, h7⟩, h8⟩, h9⟩, h10⟩, h11⟩ := hc
  have h9 : ∀ r x, d.c.recs r = some x → rrLen x.rr + x.rr.name.length ≤ 60 ∧ x.rr.ttl ≠ 0 := by
    intro r x hx
    exact of_decide_eq_true (all_of hr h9 hx)
  have some_of : ∀ {o : Option Rec} {p : Rec → Bool}, o.any p = true → ∃ x, o = some x ∧ p x = true := by
    intro o p h
    cases o with
    | none => cases h
    | some x => exact ⟨x, rfl, h⟩
  obtain ⟨x65, hx65, t65⟩ := some_of h10
  obtain ⟨x0, hx0, t0⟩ := some_of h11
  simp only [Bool.and_eq_true, beq_iff_eq] at t65 t0
  generalize d'.c = c', d'.lists = l' at hd
  cases hd with
  | send n =>
    cases n with
    | unicast hu => have := h1.symm.trans hu; cases this
    | shutdown _ _ _ hs => rw [show d.c.shutdown = false from h2] at hs; cases hs
    | @normal s1 s2 _ _ _ _ hu n1 n2 hs n3 =>
      have e1 : s1 = ⟨{ d.c with now := at_ 101 }, d.lists, {}, [], 0⟩ := by
        cases n1 with
        | empty => rfl
        | full => rfl
        | skip _ hq => rw [show d.lists.q .now = [] from h3] at hq; cases hq
        | send _ hq => rw [show d.lists.q .now = [] from h3] at hq; cases hq
        | bye _ hq => rw [show d.lists.q .now = [] from h3] at hq; cases hq
      subst e1
      have h6' : d.lists.q .publish = (List.range 66).reverse := h6
      have key : s2.m.tags = (List.range 66).reverse.map (fun r => (.an, r)) ∧
          s2.seen = (List.range 66).reverse.foldl answeredAdd [] ∧ s2.m.len ≤ 12 + 6600 ∧ s2.ret = 66 ∧
          (∀ r x, d.c.recs r = some x → ∃ y, s2.c.recs r = some y ∧ y.rr = x.rr) ∧ s2.c.frame = 9000 ∧
          s2.l.q .pause = [] := by
        have hfr := (recfree_eq n2.recfree).1
        cases n2 with
        | no _ hn => exact absurd ⟨h5, by rw [h6']; decide, h8⟩ hn
        | @yes t g1 g2 g3 n2 =>
          have h0 : ({} : Out).len = 12 := rfl
          have hw := n2.wide h9 (by
            show ({} : Out).len + 100 * (d.lists.q .publish).length < d.c.frame
            rw [h6', h7, h0]
            decide)
          have e6 : (⟨{ d.c with now := at_ 101 }, d.lists, {}, [], 0⟩ : OSt).l.q .publish = (List.range 66).reverse := h6'
          rw [e6] at hw
          obtain ⟨w1, w2, w3, w4, w5⟩ := hw
          refine ⟨by simpa using w1, w2, ?_, ?_, ?_, hfr.trans h7, ?_⟩
          · have w3 : t.m.len ≤ ({} : Out).len + 100 * (List.range 66).reverse.length := w3
            rw [h0, List.length_reverse, List.length_range] at w3
            exact w3
          · have w4 : t.ret = 0 + (List.range 66).reverse.length := w4
            rw [List.length_reverse, List.length_range] at w4
            exact w4
          · intro r x hx
            obtain ⟨y, hy, ey⟩ := w5 r x hx
            refine ⟨y, ?_, ey⟩
            show (if _ then _ else _ : Core).recs r = _
            split <;> exact hy
          · exact (n2.other (by simp)).trans h4
      obtain ⟨k1, k2, k3, k4, k5, k6, k7⟩ := key
      have pz : ∀ s3, PauseOpt s2 s3 → s3 = s2 := by
        intro s3 np
        cases np with
        | no => rfl
        | yes hq => exact absurd k7 hq
      have noret : ∀ s3, PauseOpt s2 s3 → ¬ s3.ret = 0 := by
        intro s3 np h
        rw [pz s3 np, k4] at h
        cases h
      cases n3 with
      | @answers s3 _ _ np na hr0 nf =>
        have := pz _ np
        subst this
        have hs0 : 0 ∉ s3.seen := by
          rw [k2]
          decide +kernel
        have hs65 : 65 ∈ s3.seen := by
          rw [k2]
          decide +kernel
        have an : ∀ r, r < 66 → (.an, r) ∈ m.tags := by
          intro r hr
          refine na.grows.2.1 _ ?_
          rw [k1]
          simp [hr]
        by_cases hm0 : (.ar, 0) ∈ m.tags
        · exact ⟨0, an 0 (by decide), hm0⟩
        by_cases hm1 : (.ar, 1) ∈ m.tags
        · exact ⟨1, an 1 (by decide), hm1⟩
        exfalso
        obtain ⟨y65, hy65, ey65⟩ := k5 65 x65 hx65
        obtain ⟨y0, hy0, ey0⟩ := k5 0 x0 hx0
        have hE : Extra s3.c 65 0 :=
          ⟨y65, hy65, .inl ⟨ey65 ▸ t65.1, _, ey65 ▸ t65.2, y0, hy0, ey0 ▸ t0.2, .inl (ey0 ▸ t0.1)⟩⟩
        rcases nf 65 hs65 0 hE with h | h | h
        · exact hs0 h
        · exact hm0 h
        · have h := h y0 hy0
          have hy := (h9 0 x0 hx0).1
          rw [← ey0] at hy
          cases na with
          | nil =>
            rw [k6] at h
            omega
          | @add m1 _ s1 r x n hn hx hf j =>
            have hk := (n2.made (c0 := { d.c with now := at_ 101 }) ⟨Kept.refl _, .start ..⟩).kept
            obtain ⟨z, hz, _⟩ := hk.2 r x hx
            have hb : r < d.q.size := hr.inv.rinv.bound r (by rw [show d.c.recs r = some z from hz]; rfl)
            rw [h0] at hb
            have hin : r ∉ (List.range 66).reverse.foldl answeredAdd [] := fun h => hn (n.keeps r (k2 ▸ h))
            have : ∀ r, r < 66 → r ∉ (List.range 66).reverse.foldl answeredAdd [] → r = 0 ∨ r = 1 := by decide +kernel
            rcases this r hb hin with rfl | rfl
            · exact hm0 (by rw [put_tags]; simp)
            · exact hm1 (by rw [put_tags]; simp)
      | probes np _ hr0 => exact absurd hr0 (noret _ np)
      | questions np _ hr0 => exact absurd hr0 (noret _ np)

namespace Sample

/-- An address announced long ago, then a service on that host and 65 addresses of another host. -/
def queue : List Op := [.shared [46] 1 120, .setIp 0 ipA] ++ every 101 20 ++ [.shared [46] 33 120, .setSrv 1 0 0 80 [46],
  .setAddresses (nm 97) ((List.range 65).map fun i => #v[10, 0, 1, UInt8.ofNat i])]

def queued : D Ptrs := (trace quiet queue (newD 1 9000 (at_ 100))).2

/-- The order in which they are announced. -/
def turns : List Nat := (List.range 66).reverse.map (· + 1)

/-- What is needed about the state. -/
def queuedB (d : D Ptrs) : Bool :=
  d.c.uanswers.isEmpty && !d.c.shutdown && d.q.walk .now == [] && d.q.walk .pause == [] && d.q.walk .probing == [] &&
    d.q.walk .publish == turns && d.c.frame == 9000 && decide (tvdiff (at_ 140) d.c.publish ≤ 0) &&
    allB d (fun x => decide (rrLen x.rr + x.rr.name.length ≤ 60 ∧ x.rr.ttl ≠ 0)) &&
    (List.range 64).all (fun r => (d.c.recs (r + 3)).any fun x => x.rr.type == 1) &&
    (d.c.recs 1).any (fun x => x.rr.type == 33 && x.rr.rdname == some [46]) &&
    (d.c.recs 0).any (fun x => x.rr.type == 1 && x.rr.name == [46] &&
      decide ((x.rr.rdata.getD []).length + (x.rr.rdname.getD []).length ≤ 100))

theorem queued_ok : queuedB queued = true := by decide +kernel

end Sample

open Sample in
/-- C58: in a packet with more than 64 answers, the address of a service may be missing although there is room: only
the first 64 answers are remembered as being in the packet, and supplemented (`libmdnsd/mdnsd.c:692-702`). -/
theorem C58_crowded_counterexample : ∃ d d' now ret m to r0 r, Reach quiet d ∧
    OpSafe quiet d.c d.q.walk (.send now) ∧ Mdns.step quiet (.send now) d = .ok (.sent ret m to, d') ∧
    d.c.shutdown = false ∧ (.an, r0) ∈ m.tags ∧ Supplement d r0 r ∧ (.an, r) ∉ m.tags ∧ (.ar, r) ∉ m.tags ∧
    ∃ x, d.c.recs r = some x ∧
      packetLen m.builder + (x.rr.rdata.getD []).length + (x.rr.rdname.getD []).length + 38 < d.c.frame := by
  have hr : Reach quiet queued := reach_of (by decide +kernel)
  have hc := queued_ok
  generalize queued = d at hr hc
  obtain ⟨ret, m, to, d', e, hs, _⟩ := sent_of hr (at_ 140)
  have hd := hr.did hs e
  unfold queuedB at hc
  simp only [Bool.and_eq_true, beq_iff_eq, decide_eq_true_eq, List.isEmpty_iff, Bool.not_eq_true', List.all_eq_true] at hc
  obtain ⟨⟨⟨⟨⟨⟨⟨⟨⟨⟨⟨h1, h2⟩, h3⟩, h4⟩, h5⟩, h6⟩, h7⟩, h8⟩, h9⟩, h12⟩, h10⟩, h11⟩ := hc
  have h9 : ∀ r x, d.c.recs r = some x → rrLen x.rr + x.rr.name.length ≤ 60 ∧ x.rr.ttl ≠ 0 := by
    intro r x hx
    exact of_decide_eq_true (all_of hr h9 hx)
  have some_of : ∀ {o : Option Rec} {p : Rec → Bool}, o.any p = true → ∃ x, o = some x ∧ p x = true := by
    intro o p h
    cases o with
    | none => cases h
    | some x => exact ⟨x, rfl, h⟩
  obtain ⟨x1, hx1, t1⟩ := some_of h10
  obtain ⟨x0, hx0, t0⟩ := some_of h11
  simp only [Bool.and_eq_true, beq_iff_eq, decide_eq_true_eq] at t1 t0
  have others : ∀ r, r < 64 → ∃ x, d.c.recs (r + 3) = some x ∧ x.rr.type = 1 := by
    intro r hr
    obtain ⟨x, hx, h⟩ := some_of (h12 r (by simpa using hr))
    exact ⟨x, hx, by simpa using h⟩
  suffices h : m.tags = turns.map (fun r => (.an, r)) ∧ m.len ≤ 12 + 6600 by
    refine ⟨d, d', at_ 140, ret, m, to, 1, 0, hr, hs, e, h2, by rw [h.1]; decide,
      .address _ [46] ⟨x1, hx1, rfl, t1⟩ ⟨x0, hx0, t0.1.2, .inl t0.1.1⟩, by rw [h.1]; decide, by rw [h.1]; decide, x0, hx0, ?_⟩
    have := h.2
    unfold Out.len at this
    rw [h7]
    omega
  generalize d'.c = c', d'.lists = l' at hd
  cases hd with
  | send n =>
    cases n with
    | unicast hu => have := h1.symm.trans hu; cases this
    | shutdown _ _ _ hs => rw [show d.c.shutdown = false from h2] at hs; cases hs
    | @normal s1 s2 _ _ _ _ hu n1 n2 hs n3 =>
      have e1 : s1 = ⟨{ d.c with now := at_ 140 }, d.lists, {}, [], 0⟩ := by
        cases n1 with
        | empty => rfl
        | full => rfl
        | skip _ hq => rw [show d.lists.q .now = [] from h3] at hq; cases hq
        | send _ hq => rw [show d.lists.q .now = [] from h3] at hq; cases hq
        | bye _ hq => rw [show d.lists.q .now = [] from h3] at hq; cases hq
      subst e1
      have h6' : d.lists.q .publish = turns := h6
      have key : s2.m.tags = turns.map (fun r => (.an, r)) ∧ s2.seen = turns.foldl answeredAdd [] ∧ s2.m.len ≤ 12 + 6600 ∧
          s2.ret = 66 ∧ s2.l.q .pause = [] := by
        cases n2 with
        | no _ hn => exact absurd ⟨h5, by rw [h6']; decide, h8⟩ hn
        | @yes t g1 g2 g3 n2 =>
          have h0 : ({} : Out).len = 12 := rfl
          have hl : turns.length = 66 := by decide
          have hw := n2.wide h9 (by
            show ({} : Out).len + 100 * (d.lists.q .publish).length < d.c.frame
            rw [h6', h7, h0, hl]
            decide)
          have e6 : (⟨{ d.c with now := at_ 140 }, d.lists, {}, [], 0⟩ : OSt).l.q .publish = turns := h6'
          rw [e6] at hw
          obtain ⟨w1, w2, w3, w4, _⟩ := hw
          refine ⟨by simpa using w1, w2, ?_, ?_, (n2.other (by simp)).trans h4⟩
          · have w3 : t.m.len ≤ ({} : Out).len + 100 * turns.length := w3
            rw [h0, hl] at w3
            exact w3
          · have w4 : t.ret = 0 + turns.length := w4
            rw [hl] at w4
            exact w4
      obtain ⟨k1, k2, k3, k4, k7⟩ := key
      have pz : ∀ s3, PauseOpt s2 s3 → s3 = s2 := by
        intro s3 np
        cases np with
        | no => rfl
        | yes hq => exact absurd k7 hq
      have noret : ∀ s3, PauseOpt s2 s3 → ¬ s3.ret = 0 := by
        intro s3 np h
        rw [pz s3 np, k4] at h
        cases h
      cases n3 with
      | @answers s3 _ _ np na hr0 nf =>
        have := pz _ np
        subst this
        have hk := (n2.made (c0 := { d.c with now := at_ 140 }) ⟨Kept.refl _, .start ..⟩).kept
        cases na with
        | nil => exact ⟨k1, k3⟩
        | add n hn hx hf j =>
          exfalso
          obtain ⟨r0, h0, x, hx, hE⟩ := j
          rw [k2] at h0
          have : ∀ r ∈ turns.foldl answeredAdd [], 3 ≤ r ∧ r < 67 := by decide +kernel
          obtain ⟨g1, g2⟩ := this r0 h0
          obtain ⟨y, hy, ty⟩ := others (r0 - 3) (by omega)
          rw [show r0 - 3 + 3 = r0 by omega] at hy
          obtain ⟨z, hz, ez, _⟩ := hk.2 r0 x hx
          have : some z = some y := hz.symm.trans hy
          cases this
          rw [ez] at hE
          rcases hE with ⟨h, _⟩ | ⟨h, _⟩
          · rw [ty] at h; cases h
          · rw [ty] at h; cases h
      | probes np _ hr0 => exact absurd hr0 (noret _ np)
      | questions np _ hr0 => exact absurd hr0 (noret _ np)

/-! #### Goodbye -/


namespace Sample

/-- Three records announced, which are withdrawn in two packets. -/
def parted : List Op := [.shared (nm 99) 12 120, .setHost 0 (nm 97), .shared (nm 98) 16 120, .setRaw 1 long, .shared (nm 97) 33 120,
  .setSrv 2 0 0 80 (nm 97)] ++ every 101 20 ++ [.shutdown]

def partedHost : D Ptrs := (trace quiet parted (newD 1 90 (at_ 100))).2

/-- What is needed about its first packet. -/
def partedB : Bool := match Mdns.step quiet (.send (at_ 200)) partedHost with
  | .ok (.sent _ m _, _) => m.tags == [(.an, 0)] && partedHost.c.frame == 90 &&
      (partedHost.c.recs 0).any (fun x => x.rr.type == 12 && x.rr.name == nm 99 && x.rr.rdname == some (nm 97)) &&
      (partedHost.c.recs 2).any (fun x => x.rr.type == 33 && x.rr.name == nm 97 &&
        decide (packetLen m.builder + (x.rr.rdata.getD []).length + (x.rr.rdname.getD []).length + 38 < 90))
  | _ => false

end Sample

open Sample in
/-- C58: when shutting down, the SRV record of a service is not sent along with the PTR record although there is
room: the packet ends at the first record that does not fit. -/
theorem C58_parting_counterexample : ∃ d d' now ret m to r0 r, Reach quiet d ∧
    OpSafe quiet d.c d.q.walk (.send now) ∧ Mdns.step quiet (.send now) d = .ok (.sent ret m to, d') ∧
    (.an, r0) ∈ m.tags ∧ Supplement d r0 r ∧ (.an, r) ∉ m.tags ∧ (.ar, r) ∉ m.tags ∧
    ∃ x, d.c.recs r = some x ∧
      packetLen m.builder + (x.rr.rdata.getD []).length + (x.rr.rdname.getD []).length + 38 < d.c.frame := by
  have hr : Reach quiet partedHost := reach_of (by decide +kernel)
  have hc : partedB = true := by decide +kernel
  unfold partedB at hc
  generalize partedHost = d at hr hc
  obtain ⟨ret, m, to, d', e, hs, _⟩ := sent_of hr (at_ 200)
  rw [e] at hc
  simp only [Bool.and_eq_true, beq_iff_eq] at hc
  obtain ⟨⟨⟨h1, h2⟩, h3⟩, h4⟩ := hc
  have some_of : ∀ {o : Option Rec} {p : Rec → Bool}, o.any p = true → ∃ x, o = some x ∧ p x = true := by
    intro o p h
    cases o with
    | none => cases h
    | some x => exact ⟨x, rfl, h⟩
  obtain ⟨x0, hx0, t0⟩ := some_of h3
  obtain ⟨x, hx, t⟩ := some_of h4
  simp only [Bool.and_eq_true, beq_iff_eq, decide_eq_true_eq] at t0 t
  refine ⟨d, d', at_ 200, ret, m, to, 0, 2, hr, hs, e, by rw [h1]; decide,
    .service x0 x (nm 97) hx0 t0.1.1 (by rw [t0.1.2]; decide) t0.2 hx t.1.2 (.inl t.1.1), by rw [h1]; decide, by rw [h1]; decide,
    x, hx, by rw [h2]; exact t.2⟩

end Mdns
