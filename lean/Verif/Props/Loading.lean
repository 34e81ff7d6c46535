import Verif.Props.Reload

/-!
# C64: loading again, in a daemon whose records all come from service files
-/

namespace Mdns.Conf

open Mdns

/-! ### Specification -/

/-- The calls that publish a record on behalf of a program. -/
def publishes : Op → Bool
  | .shared .. => true
  | .unique .. => true
  | .setAddresses .. => true
  | .setIpv6Addresses .. => true
  | _ => false

/-- The states of a daemon that loads service files, under any names of the host and with any addresses, and otherwise calls whatever it
likes but does not publish anything itself. -/
inductive Served (env : Env) : D Ptrs → Prop
  | new (cls frame : Nat) (now : TV) : Served env (newD cls frame now)
  | load {d d' : D Ptrs} (h : Served env d) (cb : Nat) (s : SRec) (hostname : Bytes) (addrs : Option (List Ip4 × List Ip6))
      (e : load cb s hostname addrs d = .ok ((), d')) : Served env d'
  | call {d d' : D Ptrs} {o : Op} {a : OpOut} (h : Served env d) (hp : publishes o = false) (hs : OpSafe env d.c d.q.walk o)
      (e : Mdns.step env o d = .ok (a, d')) : Served env d'

/-! ### Proof -/

theorem Served.reach {env : Env} {d : D Ptrs} (h : Served env d) : Reach env d := by
  induction h with
  | new => exact .new ..
  | load _ cb s hostname addrs e ih =>
    obtain ⟨d', _, e', cs, _⟩ := load_call ih cb s hostname addrs
    rw [e] at e'
    cases e'
    exact cs.reach ih
  | call _ _ hs e ih => exact ih.step hs e

theorem AtMostOne.named {d d' : D Ptrs} {name : Bytes} {type : Nat} (h : AtMostOne d name type) (e : Bounded.Named d.c d'.c) :
    AtMostOne d' name type := by
  intro r x s y hx hy h1 h2 h3 h4
  obtain ⟨u, hu, u1, u2⟩ := e r x hx
  obtain ⟨v, hv, v1, v2⟩ := e s y hy
  exact h r u s v hu hv (u1.trans h1) (u2.trans h2) (v1.trans h3) (v2.trans h4)

theorem RecordR.atMostOne_all {share : Bool} {n : Bytes} {type ttl : Nat} {d d' : D Ptrs} {r : Nat}
    (k : RecordR share none n type ttl d r d') (h : ∀ name, AtMostOne d name type) (name : Bytes) : AtMostOne d' name type := by
  by_cases e : n = name
  · subst e
    exact k.atMostOne (h n)
  · cases k with
    | found => exact h name
    | made _ no p _ =>
      intro a x b y hx hy h1 h2 h3 h4
      have : ∀ c z, d'.c.recs c = some z → z.rr.name = name → d.c.recs c = some z := by
        intro c z hz z1
        by_cases ec : c = r
        · subst ec
          obtain ⟨w, hw, ew⟩ := p.here
          rw [hw] at hz
          cases hz
          rw [ew] at z1
          exact absurd z1 e
        · rw [p.others c ec] at hz
          exact hz
      exact h name a x b y (this a x hx h1) (this b y hy h3) h1 h2 h3 h4

/-- At most one record of the name for each of the types of services. -/
def Single (d : D Ptrs) : Prop := ∀ name, AtMostOne d name 33 ∧ AtMostOne d name 16

theorem Served.single {env : Env} {d : D Ptrs} (h : Served env d) : Single d := by
  induction h with
  | new cls frame now => 
    intro name
    constructor <;> (intro r x s y hx; cases hx)
  | @load d dn h cb s hostname addrs e ih =>
    obtain ⟨d', hs', e', cs, _, d1, d2, d3, d4, d5, d6, d7, d8, d9, r1, r2, r3, r5, r6, r9, L⟩ := load_call h.reach cb s hostname addrs
    rw [e] at e'
    cases e'
    obtain ⟨x3, hx3, nm3, ty3, p4⟩ := L.srvData
    obtain ⟨x9, hx9, nm9, ty9, p10⟩ := L.txtData
    have k4 : ∀ t, t ≠ 33 → Same t d3 d4 := fun t ht => p4.sameType
      (fun x hx => by rw [hx3] at hx; cases hx; rw [ty3]; exact Ne.symm ht) (by show x3.rr.type ≠ t; rw [ty3]; exact Ne.symm ht)
    have k10 : ∀ t, t ≠ 16 → Same t d9 dn := fun t ht => p10.sameType
      (fun x hx => by rw [hx9] at hx; cases hx; rw [ty9]; exact Ne.symm ht) (by show x9.rr.type ≠ t; rw [ty9]; exact Ne.symm ht)
    have k7 : ∀ t, t ≠ 5 → t ≠ 16 → Same t d7 dn := fun t a b =>
      (L.cname.sameType a).trans <| (L.txt.sameType (Ne.symm b)).trans (k10 t b)
    intro name
    constructor
    · have a3 := L.srv.atMostOne_all (fun n => ((ih n).1.same (L.enum.sameType (by decide))).same (L.ptr.sameType (by decide))) name
      have a4 := p4.atMostOne hx3 rfl rfl a3
      exact (((a4.same (L.a.sameType (by decide))).same (L.aaaa.sameType (by decide))).same
        (L.addrs.sameType L.reach6 (by decide) (by decide))).same (k7 33 (by decide) (by decide))
    · have a8 : ∀ n, AtMostOne d8 n 16 := fun n => (((((((ih n).2.same (L.enum.sameType (by decide))).same (L.ptr.sameType (by decide))).same
        (L.srv.sameType (by decide))).same (k4 16 (by decide))).same (L.a.sameType (by decide))).same (L.aaaa.sameType (by decide))).same
          (L.addrs.sameType L.reach6 (by decide) (by decide)) |>.same (L.cname.sameType (by decide))
      exact p10.atMostOne hx9 rfl rfl (L.txt.atMostOne_all a8 name)
  | @call d dn o a h hp hs e ih =>
    have hr := h.reach
    by_cases hi : ∃ v4 v6, o = .setInterface v4 v6
    · obtain ⟨v4, v6, rfl⟩ := hi
      have n : AddrsR env d (some (v4, v6)) dn := .some e
      exact fun name => ⟨(ih name).1.same (n.sameType hr (by decide) (by decide)), (ih name).2.same (n.sameType hr (by decide) (by decide))⟩
    · have nm : Bounded.Named d.c dn.c := by
        refine Bounded.run_named ((hr.did hs e).run hr.inv hr.uni) fun r hn => ?_
        cases o <;> simp [publishes] at hp <;> simp [Op.may, recvLab, sendLab] at hn hi
      exact fun name => ⟨(ih name).1.named nm, (ih name).2.named nm⟩

theorem Served.calls {env : Env} {d d' : D Ptrs} {hs : List Call} (h : Served env d) (n : Calls env d hs d')
    (hp : hs.all (fun k => !publishes k.1) = true) : Served env d' := by
  induction n with
  | nil => exact h
  | snoc _ hs e ih =>
    rw [List.all_append, Bool.and_eq_true] at hp
    exact .call (ih hp.1) (by simpa using hp.2) hs e

/-! ### C64 -/

/-- C64: in a daemon whose records come from service files, loading one again that is advertised leaves all records as they are. Missing:
if the hosts do not have the addresses of the interface, as one is being withdrawn that the interface has (see
`C38_withdrawn_counterexample`). -/
theorem C64_stays_partial {env : Env} {d : D Ptrs} (h : Served env d) (cb : Nat) (s : SRec) (hostname : Bytes)
    (v4 : List Ip4) (v6 : List Ip6)
    (hn : (instanceName (s.nameOf hostname) s.typeOf).length ≤ 255)
    (ha : ∀ a, s.cname = some a → (rooted a).length ≤ 255)
    (hs : Settled d (s.tgtlocal hostname) v4 v6)
    (ad : Advertised d (s.nameOf hostname) s.typeOf (s.tgtlocal hostname) s.port s.txtData s.cname) :
    ∃ d', load cb s hostname (some (v4, v6)) d = .ok ((), d') ∧ Served env d' ∧ SameRecords d d' := by
  obtain ⟨d', e, _, sm⟩ := C64_again_partial h.reach cb s hostname v4 v6 hn ha hs ad (h.single _).1 (h.single _).2
  exact ⟨d', e, h.load cb s hostname _ e, sm⟩

/-- C64: in such a daemon, loading a file again that is advertised changes no records but addresses, whatever the addresses of
the interface are. Names have to fit. -/
theorem C64_moved_partial {env : Env} {d : D Ptrs} (h : Served env d) (cb : Nat) (s : SRec) (hostname : Bytes)
    (addrs : Option (List Ip4 × List Ip6))
    (hn : (instanceName (s.nameOf hostname) s.typeOf).length ≤ 255)
    (ha : ∀ a, s.cname = some a → (rooted a).length ≤ 255)
    (ad : Advertised d (s.nameOf hostname) s.typeOf (s.tgtlocal hostname) s.port s.txtData s.cname) :
    ∃ d', load cb s hostname addrs d = .ok ((), d') ∧ Served env d' ∧ SameOthers d d' := by
  obtain ⟨d', e, _, so⟩ := C64_readdressed_partial h.reach cb s hostname addrs hn ha ad (h.single _).1 (h.single _).2
  exact ⟨d', e, h.load cb s hostname _ e, so⟩

/-- C64: in such a daemon there is never a second SRV or TXT record of a name. -/
theorem C64_single {env : Env} {d : D Ptrs} (h : Served env d) {r r' : Nat} {x x' : Rec} (hx : d.c.recs r = some x)
    (hx' : d.c.recs r' = some x') (hn : x.rr.name = x'.rr.name) (ht : x.rr.type = x'.rr.type)
    (hs : x.rr.type = 33 ∨ x.rr.type = 16) : r = r' := by
  rcases hs with hs | hs
  · exact (h.single _).1 r x r' x' hx hx' rfl hs hn.symm (ht ▸ hs)
  · exact (h.single _).2 r x r' x' hx hx' rfl hs hn.symm (ht ▸ hs)

/-! ### The hypotheses can be met -/

namespace Sample

open Mdns.Sample

/-- The host with two services. -/
theorem two_served : Served quiet two :=
  (Served.load (.load (.new ..) _ _ _ _ (loaded_eq fresh_reach ssh nas).1) _ _ _ _ (loaded_eq (loaded_eq fresh_reach ssh nas).2 webB nas).1)

theorem before_served : Served quiet before := two_served.calls before_calls (by decide +kernel)

theorem pub_of {d : D Ptrs} {name : Bytes} {type : Nat} {p : Answer → Prop} [DecidablePred p] (r : Nat)
    (h : (d.c.recs r).any (fun x => decide (x.rr.name = name ∧ x.rr.type = type ∧ x.rr.ttl ≠ 0 ∧ p x.rr)) = true) :
    Pub d name type p := by
  obtain ⟨x, hx, h2⟩ := (Option.any_eq_true _ _).mp h
  exact ⟨r, x, hx, of_decide_eq_true h2⟩

/-- The second service is advertised. -/
theorem before_advertised : Advertised before (webB.nameOf nas) webB.typeOf (webB.tgtlocal nas) webB.port webB.txtData webB.cname :=
  ⟨pub_of 8 (by decide +kernel), pub_of 9 (by decide +kernel), pub_of 10 (by decide +kernel), pub_of 12 (by decide +kernel),
    fun a h => by cases h⟩

theorem settled_of {d : D Ptrs} {host : Bytes} {v4 : List Ip4} (hr : Reach quiet d)
    (h1 : allB d (fun x => decide ((x.rr.type = 1 ∨ x.rr.type = 28) → x.rr.name = host)) = true)
    (h2 : allB d (fun x => decide (x.rr.ttl ≠ 0)) = true) (h3 : allB d (fun x => decide (x.rr.type = 1 → x.rr.ip ∈ v4)) = true)
    (h4 : allB d (fun x => decide (x.rr.type ≠ 28)) = true)
    (h5 : v4.all (fun ip => (List.range d.lists.size).any fun r => (d.c.recs r).any fun x =>
      decide (x.rr.name = host ∧ x.rr.type = 1 ∧ x.rr.ttl ≠ 0 ∧ x.rr.ip = ip)) = true) : Settled d host v4 [] := by
  have q1 := fun {r x} hx => of_decide_eq_true (all_of hr h1 (r := r) (x := x) hx)
  have q2 := fun {r x} hx => of_decide_eq_true (all_of hr h2 (r := r) (x := x) hx)
  have q3 := fun {r x} hx => of_decide_eq_true (all_of hr h3 (r := r) (x := x) hx)
  have q4 := fun {r x} hx => of_decide_eq_true (all_of hr h4 (r := r) (x := x) hx)
  refine ⟨fun n hn => ?_, fun r x hx _ h0 => absurd h0 (q2 hx), fun r x hx _ h0 => absurd h0 (q2 hx)⟩
  have hn : n = host := by
    rcases hn with h | ⟨r, x, hx, ht, h⟩
    · exact h
    · exact h.symm.trans (q1 hx ht)
  subst hn
  refine ⟨fun ip => ⟨?_, fun m => ?_⟩, fun ip => ⟨?_, fun m => by cases m⟩⟩
  · rintro ⟨r, x, hx, _, ht, _, rfl⟩
    exact q3 hx ht
  · obtain ⟨r, _, h⟩ := List.any_eq_true.mp (List.all_eq_true.mp h5 ip m)
    obtain ⟨x, hx, h2⟩ := (Option.any_eq_true _ _).mp h
    exact ⟨r, x, hx, of_decide_eq_true h2⟩
  · rintro ⟨r, x, hx, _, ht, _⟩
    exact absurd ht (q4 hx)

/-- The host has the addresses of the interface. -/
theorem before_settled : Settled before (webB.tgtlocal nas) [ipA, ipB] [] :=
  settled_of before_reach (by decide +kernel) (by decide +kernel) (by decide +kernel) (by decide +kernel) (by decide +kernel)

/-- After the host has worked for a while, the second service is loaded again, with the same addresses and with another one. -/
example : ∃ d1 d2, load 0 webB nas (some ([ipA, ipB], [])) before = .ok ((), d1) ∧ SameRecords before d1 ∧
    load 0 webB nas (some ([ipC], [])) before = .ok ((), d2) ∧ SameOthers before d2 := by
  obtain ⟨d1, e1, _, h1⟩ := C64_stays_partial before_served 0 webB nas [ipA, ipB] [] (by decide) (fun a h => by cases h) before_settled
    before_advertised
  obtain ⟨d2, e2, _, h2⟩ := C64_moved_partial before_served 0 webB nas (some ([ipC], [])) (by decide) (fun a h => by cases h) before_advertised
  exact ⟨d1, d2, e1, h1, e2, h2⟩

end Sample

end Mdns.Conf
