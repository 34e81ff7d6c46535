import Verif.Lemmas.Safety

/-!
# C43, C28: no use of freed or NULL objects, for every sequence of calls

The states are the ones with heads and links (`Ptrs`), as in memory: reading or writing the
link of a freed record, or dereferencing a freed record or query or a NULL pointer, gives
`Res.ub`; a walk along a circular queue gives `Res.hang`.
-/

namespace Mdns

/-! ### Specification -/

/-- The four queues are intact: following the links from each head goes through records that
exist, each of them once, and ends; no record is in two queues. -/
structure QueuesIntact (d : D Ptrs) : Prop where
  ends : ∀ w, Chain d.q.link (d.q.head w) (d.q.walk w)
  once : ∀ w, (d.q.walk w).Nodup
  apart : ∀ v w r, r ∈ d.q.walk v → r ∈ d.q.walk w → v = w
  exist : ∀ w r, r ∈ d.q.walk w → (d.c.recs r).isSome
  /-- pending unicast answers refer to records that exist -/
  unicast : ∀ u ∈ d.c.uanswers, (d.c.recs u.r).isSome
  /-- the published records exist -/
  published : ∀ i r, r ∈ d.c.published i → (d.c.recs r).isSome
  /-- no cache entry refers to a query that has ended -/
  cached : ∀ i e q, e ∈ d.c.cache i → e.q = some q → (d.c.qs q).isSome
  /-- the queries exist -/
  queries : ∀ q ∈ d.c.qlist, (d.c.qs q).isSome

/-- Every call of the sequence meets the condition of that call (`OpSafe`) when it is made. -/
def SafeRun (env : Env) : D Ptrs → List Op → Prop
  | _, [] => True
  | d, o :: rest => OpSafe env d.c d.q.walk o ∧ ∀ a d', step env o d = .ok (a, d') → SafeRun env d' rest

/-! ### Proofs -/

theorem Rep.intact {d : D Ptrs} {l : Lists} (h : Rep d l) : QueuesIntact d where
  ends w := by rw [h.rq.walk]; exact h.rq.chain w
  once w := by rw [h.rq.walk]; exact h.rq.nodup w
  apart v w r hv hw := by
    rw [h.rq.walk] at hv hw
    exact h.rq.disj v w r hv hw
  exist w r hr := by
    rw [h.rq.walk] at hr
    exact h.inv.rinv.qlive w r hr
  unicast := h.inv.rinv.uans
  published i r hr := by
    obtain ⟨x, hx, _⟩ := h.inv.rinv.pub i r hr
    rw [hx]; rfl
  cached i e q he hq := by
    obtain ⟨x, hx, _⟩ := h.inv.cinv.cq i e q he hq
    rw [hx]; rfl
  queries q hq := by
    obtain ⟨x, hx⟩ := h.inv.cinv.qlist q hq
    rw [hx]; rfl

theorem Rep.run {env : Env} : ∀ (ops : List Op) {d : D Ptrs} {l : Lists}, Rep d l → SafeRun env d ops →
    ∃ outs d' l', Mdns.run env ops d = .ok (outs, d') ∧ Rep d' l'
  | [], d, l, h, _ => ⟨[], d, l, rfl, h⟩
  | o :: rest, d, l, h, ⟨hs, hr⟩ => by
    obtain ⟨a, d1, l1, e1, _, h1⟩ := h.step o hs
    obtain ⟨outs, d2, l2, e2, h2⟩ := Rep.run rest h1 (hr a d1 e1)
    refine ⟨a :: outs, d2, l2, ?_, h2⟩
    show (Mdns.step env o >>= fun x => Mdns.run env rest >>= fun xs => pure (x :: xs)) d = _
    rw [M.bind_ok e1, M.bind_ok e2]
    rfl

/-- C43, for sequences of calls that meet the conditions of `OpSafe`: every such sequence ends
normally, with intact queues.  Missing: without the conditions on `mdnsd_shutdown`,
`mdnsd_set_address` and `mdnsd_set_ipv6_address` and on callbacks that return -1 it is false,
see the four counterexamples. -/
theorem C43_no_memory_errors_partial {env : Env} {cls frame : Nat} {now : TV} {ops : List Op}
    (h : SafeRun env (newD cls frame now) ops) :
    ∃ outs d, run env ops (newD cls frame now) = .ok (outs, d) ∧ QueuesIntact d := by
  obtain ⟨outs, d, l, e, hr⟩ := Rep.run ops (newD_rep cls frame now) h
  exact ⟨outs, d, e, hr.intact⟩

/-- Every single call in a state that was reached by such calls. -/
theorem C43_every_call_partial {env : Env} {d : D Ptrs} (h : Reach env d) (o : Op) (hs : OpSafe env d.c d.q.walk o) :
    QueuesIntact d ∧ ∃ a d', step env o d = .ok (a, d') ∧ QueuesIntact d' := by
  obtain ⟨l, hr⟩ := h.rep
  obtain ⟨a, d', l', e, _, hr'⟩ := hr.step o hs
  exact ⟨hr.intact, a, d', e, hr'.intact⟩

/-- Whatever datagram arrives from wherever: if the parser accepts it, taking it in ends
normally, for every behaviour of the callbacks. -/
theorem C43_any_datagram {env : Env} {d : D Ptrs} (h : Reach env d) {b : RBuf} {cap : Nat} {m : Msg}
    (hm : messageParse b cap = .ok m) (now : TV) (src : Addr) :
    ∃ a d', step env (.recv now m src) d = .ok (a, d') ∧ QueuesIntact d' :=
  (C43_every_call_partial h (.recv now m src) (messageParse_wf hm)).2

/-- C28, for all callbacks: taking in a packet, and making one while no query that was asked
three times finds an expired entry.  Missing: an entry of such a query that has expired,
see `C28_expiry_counterexample`. -/
theorem C28_callback_may_stop_partial {env : Env} {d : D Ptrs} (h : Reach env d) :
    (∀ now m src, (∀ a ∈ m.an, Resource.WF a) →
      ∃ a d', step env (.recv now m src) d = .ok (a, d') ∧ QueuesIntact d') ∧
    (∀ now : TV, (∀ q x, d.c.qs q = some x → x.tries = 3 → x.nexttry ≤ now.sec →
        ∀ e ∈ d.c.cache (bucket x.name lprime), now.sec < e.rr.ttl) →
      ∃ a d', step env (.send now) d = .ok (a, d') ∧ QueuesIntact d') := by
  constructor
  · intro now m src hw
    exact (C43_every_call_partial h (.recv now m src) hw).2
  · intro now hn
    refine (C43_every_call_partial h (.send now) (.inr fun q _ x hx h3 hi e he => ?_)).2
    have hi : ¬ (x.nexttry = 0 ∨ x.nexttry > now.sec) := hi
    exact hn q x hx h3 (by omega) e he

/-- C28, for callbacks that never end a query because of an expired or withdrawn entry. -/
theorem C28_keep_on_expiry {env : Env} (hk : env.KeepOnExpiry) {d : D Ptrs} (h : Reach env d) (now : TV) :
    ∃ a d', step env (.send now) d = .ok (a, d') ∧ QueuesIntact d' :=
  (C43_every_call_partial h (.send now) (.inl hk)).2

/-! ### Runs that meet the conditions -/

/-- An executable condition that implies `OpSafe`. -/
def opSafeB (d : D Ptrs) : Op → Bool
  | .setAddress a => d.c.addr == a || a != ip4Zero
  | .setIpv6Address a => d.c.addr6 == a || a != ip6Zero
  | .shutdown => d.q.walk .probing == [] && d.q.walk .pause == [] && d.q.walk .publish == []
  | .recv _ m _ => m.an.all fun r => match r.known with
    | .a _ => r.type == 1
    | .aaaa _ => r.type == 28
    | .name _ => r.type == 2 || r.type == 5 || r.type == 12
    | .srv .. => r.type == 33
    | .none => r.type != 1 && r.type != 28 && r.type != 2 && r.type != 5 && r.type != 12 && r.type != 33
  | .unique _ _ _ cf => cf.isSome
  | .done r => (d.c.recs r).isSome
  | .setRaw r _ => (d.c.recs r).isSome
  | .setHost r _ => (d.c.recs r).isSome
  | .setIp r _ => (d.c.recs r).isSome
  | .setIpv6 r _ => (d.c.recs r).isSome
  | .setSrv r _ _ _ _ => (d.c.recs r).isSome
  | _ => true

theorem opSafeB_sound {env : Env} (hk : env.KeepOnExpiry) {d : D Ptrs} {o : Op} (h : opSafeB d o = true) :
    OpSafe env d.c d.q.walk o := by
  cases o with
  | setAddress a =>
    intro h1 h2
    simp only [opSafeB, Bool.or_eq_true, beq_iff_eq, bne_iff_ne] at h
    rcases h with h | h
    · exact absurd h h1
    · exact absurd h2 h
  | setIpv6Address a =>
    intro h1 h2
    simp only [opSafeB, Bool.or_eq_true, beq_iff_eq, bne_iff_ne] at h
    rcases h with h | h
    · exact absurd h h1
    · exact absurd h2 h
  | shutdown =>
    intro w hw
    simp only [opSafeB, Bool.and_eq_true, beq_iff_eq] at h
    cases w
    · exact h.1.1
    · exact absurd rfl hw
    · exact h.1.2
    · exact h.2
  | recv now m src =>
    intro a ma
    simp only [opSafeB, List.all_eq_true] at h
    have h := h a ma
    constructor <;> intros <;> cases hk : a.known <;> rw [hk] at h <;> simp at h <;> first | (simp; done) | omega
  | send now => exact .inl hk
  | unique _ _ _ cf => exact h
  | done r => exact h
  | setRaw r _ => exact h
  | setHost r _ => exact h
  | setIp r _ => exact h
  | setIpv6 r _ => exact h
  | setSrv r _ _ _ _ => exact h
  | setFamily => trivial
  | receiveCallback => trivial
  | sleep => trivial
  | query => trivial
  | shared => trivial
  | setAddresses => trivial
  | setIpv6Addresses => trivial
  | setInterface => trivial
  | clear => trivial
  | stepEnd => trivial

/-- The final state of a sequence of calls that all meet `opSafeB`. -/
def safeRunB (env : Env) : D Ptrs → List Op → Bool
  | _, [] => true
  | d, o :: rest => opSafeB d o && match step env o d with
    | .ok (_, d') => safeRunB env d' rest
    | _ => false

theorem safeRunB_sound {env : Env} (hk : env.KeepOnExpiry) : ∀ (ops : List Op) {d : D Ptrs},
    safeRunB env d ops = true → SafeRun env d ops
  | [], _, _ => trivial
  | o :: rest, d, h => by
    unfold safeRunB at h
    rw [Bool.and_eq_true] at h
    refine ⟨opSafeB_sound hk h.1, fun a d' e => ?_⟩
    have h2 := h.2
    rw [e] at h2
    exact safeRunB_sound hk rest h2

theorem SafeRun.reach {env : Env} : ∀ (ops : List Op) {d d' : D Ptrs} {outs : List OpOut}, Reach env d →
    SafeRun env d ops → run env ops d = .ok (outs, d') → Reach env d'
  | [], d, d', outs, h, _, e => by
    cases e
    exact h
  | o :: rest, d, d', outs, h, hs, e => by
    obtain ⟨l, hr⟩ := h.rep
    obtain ⟨a, d1, l1, e1, _, _⟩ := hr.step o hs.1
    have h1 := h.step hs.1 e1
    have e : (step env o >>= fun x => Mdns.run env rest >>= fun xs => pure (x :: xs)) d = .ok (outs, d') := e
    rw [M.bind_ok e1] at e
    cases e2 : run env rest d1 with
    | ok p =>
      obtain ⟨outs2, d2⟩ := p
      rw [M.bind_ok e2] at e
      cases e
      exact SafeRun.reach rest h1 (hs.2 a d1 e1) e2
    | ub =>
      have : (Mdns.run env rest >>= fun xs => pure (a :: xs)) d1 = .ub := by
        simp only [Bind.bind, e2]
      rw [this] at e
      cases e
    | hang =>
      have : (Mdns.run env rest >>= fun xs => pure (a :: xs)) d1 = .hang := by
        simp only [Bind.bind, e2]
      rw [this] at e
      cases e

namespace Sample

/-- Callbacks that only look. -/
def quiet : Env := ⟨fun _ => {}, fun _ => some []⟩
/-- Callbacks that return -1 for an entry that goes away. -/
def stopOnExpiry : Env :=
  ⟨fun l => match l.getLast? with
    | some (.answer _ _ rr) => { stop := rr.ttl == 0 }
    | _ => {}, fun _ => some []⟩

theorem quiet_keeps : quiet.KeepOnExpiry := fun _ _ _ _ _ => rfl

def at_ (n : Nat) : TV := ⟨n, 0⟩
/-- One-letter names `a.`, `b.`, .. -/
def nm (c : UInt8) : Bytes := [c, 46]
def ipA : Ip4 := #v[10, 0, 0, 1]
/-- Another host. -/
def other : Addr := ⟨.v4 #v[10, 0, 0, 9], 5353⟩
/-- A response with one PTR record. -/
def ptrMsg (ttl : Nat) : Msg :=
  { id := 0, header := { qr := true }, qd := [], an := [⟨nm 97, 12, 1, ttl, [], .name (nm 98)⟩], ns := [], ar := [] }
def long : Bytes := List.replicate 50 1

/-- Publishing, probing, announcing, receiving, withdrawing and shutting down. -/
def ops : List Op :=
  [.setAddress ipA, .unique (nm 97) 1 120 (some 1), .setIp 0 ipA, .shared (nm 98) 12 120, .setHost 1 (nm 97),
   .query (nm 97) 12 (some 7), .send (at_ 101), .recv (at_ 101) (ptrMsg 10) other, .send (at_ 102), .send (at_ 103),
   .send (at_ 104), .send (at_ 106), .send (at_ 108), .send (at_ 110), .send (at_ 112), .sleep (at_ 113), .done 1,
   .send (at_ 114), .setAddresses (nm 97) [#v[10, 0, 0, 2]], .send (at_ 115), .send (at_ 117), .send (at_ 119),
   .send (at_ 121), .send (at_ 123), .send (at_ 125), .clear, .shutdown, .send (at_ 127)]

example : SafeRun quiet (newD 1 1500 (at_ 100)) ops :=
  safeRunB_sound quiet_keeps ops (by decide +kernel)

/-- What kind of result. -/
def outcome {α : Type} : Res α → Nat
  | .ok _ => 0
  | .ub => 1
  | .hang => 2

end Sample

open Sample

theorem outcome_ub {α : Type} {r : Res α} (h : outcome r = 1) : r = .ub := by
  cases r <;> first | rfl | cases h

/-- C28 is false in full: a callback that returns -1 when an entry expires while a packet is
made has its query freed in the middle of the loop over the queries
(`libmdnsd/mdnsd.c:1424-1428`). -/
theorem C28_expiry_counterexample :
    run stopOnExpiry [.query (nm 97) 12 (some 1), .recv (at_ 101) (ptrMsg 4) other, .send (at_ 104), .send (at_ 105),
      .send (at_ 107), .send (at_ 111)] (newD 1 1500 (at_ 100)) = .ub :=
  outcome_ub (by decide +kernel)

/-- The same callback may end its query when a goodbye is received. -/
example : outcome (run stopOnExpiry [.query (nm 97) 12 (some 1), .recv (at_ 101) (ptrMsg 4) other,
    .recv (at_ 102) (ptrMsg 0) other, .send (at_ 104), .send (at_ 105), .send (at_ 107), .send (at_ 111)]
    (newD 1 1500 (at_ 100))) = 0 := by decide +kernel

/-- C43 is false in full: `mdnsd_shutdown` with records waiting to be announced links them into
a second queue (`libmdnsd/mdnsd.c:1028-1029`); when a packet is full one of them is freed by the
announcements and used by the next packet. -/
theorem C43_shutdown_counterexample :
    run quiet [.shared (nm 99) 16 120, .setRaw 0 long, .shared (nm 98) 16 120, .setRaw 1 long, .shared (nm 97) 16 120,
      .setRaw 2 [1], .shutdown, .send (at_ 101), .send (at_ 105)] (newD 1 100 (at_ 100)) = .ub :=
  outcome_ub (by decide +kernel)

/-- C43 is false in full: taking the address away while its record is probed
(`libmdnsd/mdnsd.c:959-960`) drops the records behind it from the probes, and withdrawing one
of those follows a NULL link (`libmdnsd/mdnsd.c:1681`). -/
theorem C43_set_address_counterexample :
    run quiet [.unique (nm 97) 16 120 (some 1), .setRaw 0 [1], .unique (nm 98) 1 120 (some 1), .setIp 1 ipA,
      .setAddress ipA, .setAddress ip4Zero, .done 0] (newD 1 1500 (at_ 100)) = .ub :=
  outcome_ub (by decide +kernel)

/-- A unique record without conflict callback: a conflict calls NULL (`libmdnsd/mdnsd.c:497`). -/
theorem C43_no_conflict_callback_counterexample :
    run quiet [.setAddress ipA, .unique (nm 97) 16 120 none, .setRaw 0 [1], .recv (at_ 105)
        { id := 0, header := { qr := true }, qd := [], an := [⟨nm 97, 16, 1, 120, [1], .none⟩], ns := [], ar := [] } other]
      (newD 1 1500 (at_ 100)) = .ub :=
  outcome_ub (by decide +kernel)

end Mdns
