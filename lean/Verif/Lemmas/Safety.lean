import Verif.Lemmas.Calls
import Verif.Lemmas.Sim

/-!
# Every call keeps the invariants, with heads and links as well
-/

namespace Mdns

open M

/-! ### Parsed messages -/

theorem PRes.bind_inv {α β : Type} {r : PRes α} {f : α → PRes β} {x : β} (h : (r >>= f) = .ok x) :
    ∃ a, r = .ok a ∧ f a = .ok x := by
  cases r with
  | ok a => exact ⟨a, rfl, h⟩
  | fail => cases h
  | oob => cases h
  | wub => cases h
  | hang => cases h

theorem parseRr_wf {b : RBuf} {cap slot : Nat} {s s' : PState} {r : Resource} (h : parseRr b cap slot s = .ok (r, s')) :
    r.WF := by
  unfold parseRr at h
  obtain ⟨⟨name, s1⟩, _, h⟩ := PRes.bind_inv h
  obtain ⟨_, _, h⟩ := PRes.bind_inv h
  obtain ⟨type, _, h⟩ := PRes.bind_inv h
  obtain ⟨cls, _, h⟩ := PRes.bind_inv h
  obtain ⟨ttl, _, h⟩ := PRes.bind_inv h
  obtain ⟨rdl, _, h⟩ := PRes.bind_inv h
  dsimp only at h
  by_cases hl : rdl + (s1.pos + 10) > maxPacketLen ∨ s1.len + rdl > maxPacketLen
  · rw [if_pos hl] at h
    cases h
  rw [if_neg hl] at h
  by_cases hn : isNameType type = true
  · rw [if_pos hn] at h
    obtain ⟨⟨n, s2⟩, _, h⟩ := PRes.bind_inv h
    cases h
    simp only [isNameType, Bool.or_eq_true, beq_iff_eq, or_assoc] at hn
    constructor <;> intros <;> first | exact ⟨_, rfl⟩ | (simp only at *; omega)
  rw [if_neg hn] at h
  simp only [isNameType, Bool.or_eq_true, beq_iff_eq, or_assoc] at hn
  by_cases ht : type = 33
  · rw [if_pos ht] at h
    obtain ⟨_, _, h⟩ := PRes.bind_inv h
    obtain ⟨_, _, h⟩ := PRes.bind_inv h
    obtain ⟨_, _, h⟩ := PRes.bind_inv h
    obtain ⟨⟨n, s2⟩, _, h⟩ := PRes.bind_inv h
    cases h
    constructor <;> intros <;> first | exact ⟨_, _, _, _, rfl⟩ | (simp only at *; omega)
  rw [if_neg ht] at h
  obtain ⟨_, _, h⟩ := PRes.bind_inv h
  obtain ⟨_, _, h⟩ := PRes.bind_inv h
  by_cases h1 : type = 1
  · rw [if_pos h1] at h
    split at h
    · cases h
    · obtain ⟨_, _, h⟩ := PRes.bind_inv h
      obtain ⟨_, _, h⟩ := PRes.bind_inv h
      cases h
      constructor <;> intros <;> first | exact ⟨_, rfl⟩ | (simp only at *; omega)
  rw [if_neg h1] at h
  by_cases h2 : type = 28
  · rw [if_pos h2] at h
    split at h
    · cases h
    · obtain ⟨_, _, h⟩ := PRes.bind_inv h
      obtain ⟨_, _, h⟩ := PRes.bind_inv h
      cases h
      constructor <;> intros <;> first | exact ⟨_, rfl⟩ | (simp only at *; omega)
  rw [if_neg h2] at h
  cases h
  constructor <;> intros <;> first | rfl | (simp only at *; omega)

theorem parseRrs_wf {b : RBuf} {cap : Nat} : ∀ (n : Nat) {slot : Nat} {s s' : PState} {rs : List Resource},
    parseRrs b cap slot n s = .ok (rs, s') → ∀ r ∈ rs, r.WF
  | 0, slot, s, s', rs, h => by
    unfold parseRrs at h
    cases h
    intro r m
    cases m
  | n + 1, slot, s, s', rs, h => by
    unfold parseRrs at h
    obtain ⟨⟨r1, s1⟩, e1, h⟩ := PRes.bind_inv h
    obtain ⟨⟨rs1, s2⟩, e2, h⟩ := PRes.bind_inv h
    cases h
    intro r m
    rcases List.mem_cons.mp m with rfl | m
    · exact parseRr_wf e1
    · exact parseRrs_wf n e2 r m

/-- The data of a parsed record fits its type. -/
theorem messageParse_wf {b : RBuf} {cap : Nat} {m : Msg} (h : messageParse b cap = .ok m) : ∀ r ∈ m.an, r.WF := by
  unfold messageParse at h
  obtain ⟨_, _, h⟩ := PRes.bind_inv h
  obtain ⟨_, _, h⟩ := PRes.bind_inv h
  obtain ⟨_, _, h⟩ := PRes.bind_inv h
  obtain ⟨_, _, h⟩ := PRes.bind_inv h
  split at h
  · cases h
  · obtain ⟨_, _, h⟩ := PRes.bind_inv h
    split at h
    · cases h
    · obtain ⟨_, _, h⟩ := PRes.bind_inv h
      split at h
      · cases h
      · obtain ⟨_, _, h⟩ := PRes.bind_inv h
        split at h
        · cases h
        · unfold parseBody at h
          obtain ⟨⟨qd, s1⟩, _, h⟩ := PRes.bind_inv h
          obtain ⟨⟨an, s2⟩, e2, h⟩ := PRes.bind_inv h
          obtain ⟨⟨ns, s3⟩, _, h⟩ := PRes.bind_inv h
          obtain ⟨⟨ar, s4⟩, _, h⟩ := PRes.bind_inv h
          cases h
          exact parseRrs_wf _ e2

/-! ### The conditions of the calls -/

/-- What the caller has to see to: handles are of records that still exist, a unique record
has a conflict callback, messages come from the parser, the own address is not taken away
while records with it are queued, the daemon is not shut down while records are waiting to be
sent, and no callback ends a query for an expired entry while a packet is made. -/
def OpSafe (env : Env) (c : Core) (q : W → List Nat) : Op → Prop
  | .setAddress a => c.addr ≠ a → a = ip4Zero → ∀ r x, c.recs r = some x → x.rr.type = 1 → ∀ w, r ∉ q w
  | .setIpv6Address a => c.addr6 ≠ a → a = ip6Zero → ∀ r x, c.recs r = some x → x.rr.type = 28 → ∀ w, r ∉ q w
  | .shutdown => ∀ w, w ≠ .now → q w = []
  | .recv _ m _ => ∀ a ∈ m.an, a.WF
  | .send now => env.KeepOnExpiry ∨ ({ c with now := now } : Core).Unexpired c.qlist
  | .unique _ _ _ cf => cf.isSome
  | .done r => (c.recs r).isSome
  | .setRaw r _ => (c.recs r).isSome
  | .setHost r _ => (c.recs r).isSome
  | .setIp r _ => (c.recs r).isSome
  | .setIpv6 r _ => (c.recs r).isSome
  | .setSrv r _ _ _ _ => (c.recs r).isSome
  | _ => True

/-- What a call does. -/
inductive Did (env : Env) : Op → Core → Lists → OpOut → Core → Lists → Prop
  | setFamily {f : Family} {c : Core} {l : Lists} : Did env (.setFamily f) c l .unit { c with family := f } l
  | setAddress {a : Ip4} {c c' : Core} {l l' : Lists} (n : Addr4 a c l c' l') :
      Did env (.setAddress a) c l .unit c' l'
  | setIpv6Address {a : Ip6} {c c' : Core} {l l' : Lists} (n : Addr6 a c l c' l') :
      Did env (.setIpv6Address a) c l .unit c' l'
  | shutdown {c c' : Core} {l l' : Lists} (hq : ∀ w, w ≠ .now → l.q w = []) (n : Shut c l c' l') :
      Did env .shutdown c l .unit c' l'
  | receiveCallback {b : Bool} {c : Core} {l : Lists} : Did env (.receiveCallback b) c l .unit { c with recvCb := b } l
  | recv {now : TV} {m : Msg} {src : Addr} {ret : Nat} {c c' : Core} {l l' : Lists} (wf : ∀ a ∈ m.an, a.WF)
      (n : InMsg env now m src c l ret c' l') : Did env (.recv now m src) c l .unit c' l'
  | send {now : TV} {ret : Nat} {m : Out} {to : Addr} {c c' : Core} {l l' : Lists}
      (n : OutMsg env { c with now := now } l ret m to c' l') : Did env (.send now) c l (.sent ret m to) c' l'
  | sleep {now t : TV} {c c' : Core} {l l' : Lists} (n : SleepR now c l t c' l') :
      Did env (.sleep now) c l (.time t) c' l'
  | query {h : Bytes} {t : Nat} {a : Option Nat} {c c' : Core} {l : Lists} (e : c.query h t a = .ok c')
      (n : QStep c c') : Did env (.query h t a) c l .unit c' l
  | shared {h : Bytes} {t ttl : Nat} {c : Core} {l : Lists} : Did env (.shared h t ttl) c l (.handle l.size)
      (c.publishRec l.size (sharedRec h t ttl)) (l.fresh false)
  | unique {h : Bytes} {t ttl cf : Nat} {c : Core} {l : Lists} :
      Did env (.unique h t ttl (some cf)) c l (.handle l.size)
        { c.publishRec l.size (uniqueRec h t ttl (some cf)) with probe := c.now } (l.fresh true)
  | done {r : Nat} {x : Rec} {c : Core} {l : Lists} (hx : c.recs r = some x) :
      Did env (.done r) c l .unit (doneSt c l r x).c (doneSt c l r x).q
  | setRaw {r : Nat} {d : Bytes} {x : Rec} {c : Core} {l : Lists} (hx : c.recs r = some x) :
      Did env (.setRaw r d) c l .unit (setSt c l r { x with rr := { x.rr with rdata := some d } }).c
        (setSt c l r { x with rr := { x.rr with rdata := some d } }).q
  | setHost {r : Nat} {n : Bytes} {x : Rec} {c : Core} {l : Lists} (hx : c.recs r = some x) :
      Did env (.setHost r n) c l .unit (setSt c l r { x with rr := { x.rr with rdname := some n } }).c
        (setSt c l r { x with rr := { x.rr with rdname := some n } }).q
  | setIp {r : Nat} {a : Ip4} {x : Rec} {c : Core} {l : Lists} (hx : c.recs r = some x) :
      Did env (.setIp r a) c l .unit (setSt c l r { x with rr := { x.rr with ip := a } }).c
        (setSt c l r { x with rr := { x.rr with ip := a } }).q
  | setIpv6 {r : Nat} {a : Ip6} {x : Rec} {c : Core} {l : Lists} (hx : c.recs r = some x) :
      Did env (.setIpv6 r a) c l .unit (setSt c l r { x with rr := { x.rr with ip6 := a } }).c
        (setSt c l r { x with rr := { x.rr with ip6 := a } }).q
  | setSrv {r p w o : Nat} {n : Bytes} {x : Rec} {c : Core} {l : Lists} (hx : c.recs r = some x) :
      Did env (.setSrv r p w o n) c l .unit
        (setSt c l r { x with rr := { x.rr with priority := p, weight := w, port := o, rdname := some n } }).c
        (setSt c l r { x with rr := { x.rr with priority := p, weight := w, port := o, rdname := some n } }).q
  | setAddresses {h : Bytes} {a : List Ip4} {c c' : Core} {l l' : Lists} (n : UpdA h 1 (a.map Ip.v4) c l c' l') :
      Did env (.setAddresses h a) c l .unit c' l'
  | setIpv6Addresses {h : Bytes} {a : List Ip6} {c c' : Core} {l l' : Lists} (n : UpdA h 28 (a.map Ip.v6) c l c' l') :
      Did env (.setIpv6Addresses h a) c l .unit c' l'
  | setInterface {a : List Ip4} {b : List Ip6} {c c' : Core} {l l' : Lists}
      (n : IfA a b (c.hostsOf c.allPublished []) c l c' l') : Did env (.setInterface a b) c l .unit c' l'
  | clear {c c' : Core} {l l' : Lists} (n : NoRecs c' l') (e : c'.recfree = c.recfree) (i : DInv c' l')
      (z : l'.size = l.size) (tm : c'.probe = c.probe ∧ c'.publish = c.publish ∧ c'.pause = c.pause) :
      Did env .clear c l .unit c' l'
  | stepEnd {c : Core} {l : Lists} : Did env .stepEnd c l .unit { c with disco := false } l

theorem Did.inv {env : Env} {o : Op} {a : OpOut} {c c' : Core} {l l' : Lists} (n : Did env o c l a c' l')
    (h : DInv c l) : DInv c' l' := by
  cases n with
  | setFamily => exact h.congr rfl rfl rfl rfl rfl rfl rfl rfl rfl
  | setAddress n => exact n.inv h
  | setIpv6Address n => exact n.inv h
  | shutdown _ n => exact n.inv
  | receiveCallback => exact h.congr rfl rfl rfl rfl rfl rfl rfl rfl rfl
  | recv wf n => exact n.inv wf h
  | send n => exact n.inv (h.atNow _)
  | sleep n => exact n.inv h
  | query _ n => exact ⟨n.inv, h.rinv.rest n.rest⟩
  | shared => exact shared_inv h _ _ _
  | unique => exact unique_inv h _ _ _ _
  | done hx => exact doneSt_inv h hx
  | setRaw hx => exact setSt_inv h hx ⟨rfl, rfl, rfl, rfl, rfl, rfl⟩
  | setHost hx => exact setSt_inv h hx ⟨rfl, rfl, rfl, rfl, rfl, rfl⟩
  | setIp hx => exact setSt_inv h hx ⟨rfl, rfl, rfl, rfl, rfl, rfl⟩
  | setIpv6 hx => exact setSt_inv h hx ⟨rfl, rfl, rfl, rfl, rfl, rfl⟩
  | setSrv hx => exact setSt_inv h hx ⟨rfl, rfl, rfl, rfl, rfl, rfl⟩
  | setAddresses n => exact n.inv
  | setIpv6Addresses n => exact n.inv
  | setInterface n => exact n.inv
  | clear _ _ i _ _ => exact i
  | stepEnd => exact h.congr rfl rfl rfl rfl rfl rfl rfl rfl rfl

theorem CInv.query_ok {c : Core} (h : CInv c) (host : Bytes) (type : Nat) (a : Option Nat) :
    ∃ c', c.query host type a = .ok c' ∧ QStep c c' := by
  cases a with
  | none =>
    obtain ⟨c', e, n, _⟩ := h.queryOff host type
    exact ⟨c', e, n⟩
  | some cb =>
    obtain ⟨c', e, n, _⟩ := h.queryOn host type cb
    exact ⟨c', e, n.toQStep⟩

theorem step_ok {env : Env} {c : Core} {l : Lists} (h : DInv c l) (o : Op)
    (hs : OpSafe env c l.q o) : ∃ a c' l', step env o ⟨c, l⟩ = .ok (a, ⟨c', l'⟩) ∧ Did env o c l a c' l' := by
  cases o with
  | setFamily f => exact ⟨_, _, _, rfl, .setFamily⟩
  | setAddress a =>
    obtain ⟨c', l', e, n⟩ := setAddress_ok h hs
    exact ⟨_, _, _, (M.bind_ok e).trans rfl, .setAddress n⟩
  | setIpv6Address a =>
    obtain ⟨c', l', e, n⟩ := setIpv6Address_ok h hs
    exact ⟨_, _, _, (M.bind_ok e).trans rfl, .setIpv6Address n⟩
  | shutdown =>
    obtain ⟨c', l', e, n⟩ := shutdown_ok h hs
    exact ⟨_, _, _, (M.bind_ok e).trans rfl, .shutdown hs n⟩
  | receiveCallback b => exact ⟨_, _, _, rfl, .receiveCallback⟩
  | recv now m src =>
    obtain ⟨ret, c', l', e, n⟩ := inMsg_ok (env := env) (now := now) (src := src) h hs
    exact ⟨_, _, _, (M.bind_ok e).trans rfl, .recv hs n⟩
  | send now =>
    obtain ⟨ret, m, to, c', l', e, n⟩ := outMsg_ok h now hs
    exact ⟨_, _, _, (M.bind_ok e).trans rfl, .send n⟩
  | sleep now =>
    obtain ⟨t, c', l', e, n⟩ := sleep_ok (now := now) h
    exact ⟨_, _, _, (M.bind_ok e).trans rfl, .sleep n⟩
  | query host type a =>
    obtain ⟨c', e, n⟩ := h.cinv.query_ok host type a
    refine ⟨_, _, _, (M.bind_ok (liftC_ok (c' := c') (a := ()) ?_)).trans rfl, .query e n⟩
    rw [e]
    rfl
  | shared host type ttl => exact ⟨_, _, _, (M.bind_ok (shared_ok host type ttl)).trans rfl, .shared⟩
  | unique host type ttl cf =>
    obtain ⟨cf, rfl⟩ := Option.isSome_iff_exists.mp hs
    exact ⟨_, _, _, (M.bind_ok (unique_ok h.rinv host type ttl (some cf))).trans rfl, .unique⟩
  | done r =>
    obtain ⟨x, hx⟩ := Option.isSome_iff_exists.mp hs
    exact ⟨_, _, _, (M.bind_ok (done_ok h.rinv hx)).trans rfl, .done hx⟩
  | setRaw r d =>
    obtain ⟨x, hx⟩ := Option.isSome_iff_exists.mp hs
    exact ⟨_, _, _, (M.bind_ok (setRaw_ok h.rinv hx d)).trans rfl, .setRaw hx⟩
  | setHost r n =>
    obtain ⟨x, hx⟩ := Option.isSome_iff_exists.mp hs
    exact ⟨_, _, _, (M.bind_ok (setHost_ok h.rinv hx n)).trans rfl, .setHost hx⟩
  | setIp r a =>
    obtain ⟨x, hx⟩ := Option.isSome_iff_exists.mp hs
    exact ⟨_, _, _, (M.bind_ok (setIp_ok h.rinv hx a)).trans rfl, .setIp hx⟩
  | setIpv6 r a =>
    obtain ⟨x, hx⟩ := Option.isSome_iff_exists.mp hs
    exact ⟨_, _, _, (M.bind_ok (setIpv6_ok h.rinv hx a)).trans rfl, .setIpv6 hx⟩
  | setSrv r p w o n =>
    obtain ⟨x, hx⟩ := Option.isSome_iff_exists.mp hs
    exact ⟨_, _, _, (M.bind_ok (setSrv_ok h.rinv hx p w o n)).trans rfl, .setSrv hx⟩
  | setAddresses host a =>
    obtain ⟨c', l', e, n⟩ := updateAddrs_ok (host := host) (type := 1) (want := a.map Ip.v4) h
    exact ⟨_, _, _, (M.bind_ok e).trans rfl, .setAddresses n⟩
  | setIpv6Addresses host a =>
    obtain ⟨c', l', e, n⟩ := updateAddrs_ok (host := host) (type := 28) (want := a.map Ip.v6) h
    exact ⟨_, _, _, (M.bind_ok e).trans rfl, .setIpv6Addresses n⟩
  | setInterface a b =>
    obtain ⟨c', l', e, n⟩ := setInterface_ok (v4 := a) (v6 := b) h
    exact ⟨_, _, _, (M.bind_ok e).trans rfl, .setInterface n⟩
  | clear =>
    obtain ⟨c', l', e, n, hr, i, z, tm⟩ := clear_ok h
    exact ⟨_, _, _, (M.bind_ok e).trans rfl, .clear n hr i z tm⟩
  | stepEnd => exact ⟨_, _, _, rfl, .stepEnd⟩

/-! ### Heads and links -/

/-- The records of a queue, read off heads and links. -/
def Ptrs.walkF (p : Ptrs) : Nat → Option Nat → List Nat
  | 0, _ => []
  | _, none => []
  | n + 1, some r => r :: p.walkF n (p.link r).join

/-- The records of a queue, read off heads and links. -/
def Ptrs.walk (p : Ptrs) (w : W) : List Nat := p.walkF p.size (p.head w)

theorem Chain.walk {p : Ptrs} : ∀ {l : List Nat} {h : Option Nat} {n : Nat}, Chain p.link h l → l.length ≤ n →
    p.walkF n h = l
  | [], h, n, c, _ => by
    cases c
    cases n <;> rfl
  | r :: rs, h, n + 1, ⟨e, x, hx, c⟩, hn => by
    subst e
    unfold Ptrs.walkF
    rw [hx]
    congr 1
    exact Chain.walk c (by simpa using hn)

theorem RQ.walk {p : Ptrs} {l : Lists} (h : RQ p l) : p.walk = l.q := by
  funext w
  exact (h.chain w).walk (h.length_le w)

/-- A state with heads and links that represents a good state with separate lists. -/
structure Rep (d : D Ptrs) (l : Lists) : Prop where
  rq : RQ d.q l
  inv : DInv d.c l

theorem newD_rep (cls frame : Nat) (now : TV) : Rep (newD cls frame now) {} where
  rq := by
    constructor
    · rfl
    · intro r; rfl
    · intro w; rfl
    · intro w; exact List.nodup_nil
    · intro v w r hv; cases hv
    · intro r hr; cases hr
  inv := by
    constructor
    · constructor
      · intro i q hq; cases hq
      · intro q x hx; cases hx
      · intro q hq; cases hq
      · intro i; exact List.nodup_nil
      · exact List.nodup_nil
      · intro q q' x x' hx; cases hx
      · intro q x hx; cases hx
      · intro i e he; cases he
      · intro i e q he; cases he
      · intro i; exact List.Pairwise.nil
      · intro host type cb
        constructor
        · intro h; cases h
        · rintro ⟨q, x, hx, _⟩; cases hx
      · intro t q cb rr s h
        have h : [] = t ++ Event.answer q cb rr :: s := h
        cases t <;> cases h
    · constructor
      · intro w; exact List.nodup_nil
      · intro v w r hv; cases hv
      · intro w r hr; cases hr
      · intro r hr; cases hr
      · intro r; rfl
      · intro i r hr; cases hr
      · intro r x hx; cases hx
      · intro i; exact List.nodup_nil
      · intro r x hx; cases hx
      · intro r x hx; cases hx
      · intro r x hx; cases hx
      · intro r x hx; cases hx
      · intro r x hx; cases hx
      · intro u hu; cases hu

/-- A safe call on heads and links ends normally, and does what the lists say. -/
theorem Rep.step {env : Env} {d : D Ptrs} {l : Lists} (h : Rep d l) (o : Op)
    (hs : OpSafe env d.c d.q.walk o) :
    ∃ a d' l', Mdns.step env o d = .ok (a, d') ∧ Did env o d.c l a d'.c l' ∧ Rep d' l' := by
  rw [h.rq.walk] at hs
  obtain ⟨a, c', l', e, n⟩ := step_ok h.inv o hs
  obtain ⟨p', e', hr⟩ := Sim.step env o d.q l d.c h.rq a c' l' e
  exact ⟨a, ⟨c', p'⟩, l', e', n, hr, n.inv h.inv⟩

/-- The states safe calls lead to. -/
inductive Reach (env : Env) : D Ptrs → Prop
  | new (cls frame : Nat) (now : TV) : Reach env (newD cls frame now)
  | step {d d' : D Ptrs} {o : Op} {a : OpOut} (h : Reach env d) (hs : OpSafe env d.c d.q.walk o)
      (e : Mdns.step env o d = .ok (a, d')) : Reach env d'

theorem Reach.rep {env : Env} {d : D Ptrs} (h : Reach env d) : ∃ l, Rep d l := by
  induction h with
  | new cls frame now => exact ⟨_, newD_rep cls frame now⟩
  | step _ hs e ih =>
    obtain ⟨l, hr⟩ := ih
    obtain ⟨a', d'', l', e', _, hr'⟩ := hr.step _ hs
    rw [e] at e'
    cases e'
    exact ⟨l', hr'⟩

end Mdns
