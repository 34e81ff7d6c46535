import Verif.Lemmas.Queues
import Verif.Model.Daemon

/-!
# Heads and links do what the four lists do

Every function of the daemon, run on the links in memory, gives the same result as
on four separate lists, as long as the latter stay separate.
-/

namespace Mdns

open M

theorem M.bind_ok {Q α β : Type} {x : M Q α} {f : α → M Q β} {d d' : D Q} {a : α} (h : x d = .ok (a, d')) :
    (x >>= f) d = f a d' := by
  show (match x d with
      | .ok (a, d') => f a d'
      | .ub => .ub
      | .hang => .hang) = _
  rw [h]

theorem M.bind_ub {Q α β : Type} {x : M Q α} {f : α → M Q β} {d : D Q} (h : x d = .ub) : (x >>= f) d = .ub := by
  show (match x d with
      | .ok (a, d') => f a d'
      | .ub => .ub
      | .hang => .hang) = _
  rw [h]

theorem M.bind_hang {Q α β : Type} {x : M Q α} {f : α → M Q β} {d : D Q} (h : x d = .hang) :
    (x >>= f) d = .hang := by
  show (match x d with
      | .ok (a, d') => f a d'
      | .ub => .ub
      | .hang => .hang) = _
  rw [h]

/-- `x` on heads and links does what `y` does on lists. -/
def Sim {α : Type} (x : M Ptrs α) (y : M Lists α) : Prop :=
  ∀ p l c, RQ p l → ∀ a c' l', y ⟨c, l⟩ = .ok (a, ⟨c', l'⟩) → ∃ p', x ⟨c, p⟩ = .ok (a, ⟨c', p'⟩) ∧ RQ p' l'

namespace Sim

theorem pure {α : Type} (a : α) : Sim (Pure.pure a) (Pure.pure a) := by
  intro p l c h a' c' l' e
  cases e
  exact ⟨p, rfl, h⟩

theorem bind {α β : Type} {x : M Ptrs α} {y : M Lists α} {f : α → M Ptrs β} {g : α → M Lists β}
    (h : Sim x y) (hf : ∀ a, Sim (f a) (g a)) : Sim (x >>= f) (y >>= g) := by
  intro p l c hr a c' l' e
  cases hy : y ⟨c, l⟩ with
  | ub => rw [M.bind_ub hy] at e; cases e
  | hang => rw [M.bind_hang hy] at e; cases e
  | ok ad =>
    obtain ⟨a1, c1, l1⟩ := ad
    rw [M.bind_ok hy] at e
    obtain ⟨p1, h1, r1⟩ := h p l c hr a1 c1 l1 hy
    obtain ⟨p2, h2, r2⟩ := hf a1 p1 l1 c1 r1 a c' l' e
    refine ⟨p2, ?_, r2⟩
    rw [M.bind_ok h1]
    exact h2

theorem ite {α : Type} {c : Prop} [Decidable c] {x x' : M Ptrs α} {y y' : M Lists α} (h : Sim x y) (h' : Sim x' y') :
    Sim (if c then x else x') (if c then y else y') := by
  split
  · exact h
  · exact h'

theorem ub {α : Type} : Sim (M.ub (α := α)) M.ub := by
  intro p l c h a c' l' e
  cases e

theorem hang {α : Type} : Sim (M.hang (α := α)) M.hang := by
  intro p l c h a c' l' e
  cases e

theorem core : Sim M.core M.core := by
  intro p l c h a c' l' e
  cases e
  exact ⟨p, rfl, h⟩

theorem modC (f : Core → Core) : Sim (M.modC f) (M.modC f) := by
  intro p l c h a c' l' e
  cases e
  exact ⟨p, rfl, h⟩

theorem liftC {α : Type} (f : Core → Res (α × Core)) : Sim (M.liftC f) (M.liftC f) := by
  intro p l c h a c' l' e
  unfold M.liftC at *
  simp only at *
  cases hf : f c with
  | ok x => rw [hf] at e; cases e; exact ⟨p, rfl, h⟩
  | ub => rw [hf] at e; cases e
  | hang => rw [hf] at e; cases e

theorem getRec (r : Nat) : Sim (M.getRec r) (M.getRec r) := by
  intro p l c h a c' l' e
  unfold M.getRec at *
  simp only at *
  cases hf : c.recs r with
  | some x => rw [hf] at e; cases e; exact ⟨p, rfl, h⟩
  | none => rw [hf] at e; cases e

theorem modRec (r : Nat) (f : Rec → Rec) : Sim (M.modRec r f) (M.modRec r f) := by
  intro p l c h a c' l' e
  unfold M.modRec at *
  simp only at *
  cases hf : c.recs r with
  | some x => rw [hf] at e; cases e; exact ⟨p, rfl, h⟩
  | none => rw [hf] at e; cases e

/-- Operations on the queues without a result. -/
theorem liftQ_unit {f : Ptrs → Res Ptrs} {g : Lists → Res Lists}
    (h : ∀ p l l', RQ p l → g l = .ok l' → ∃ p', f p = .ok p' ∧ RQ p' l') :
    Sim (M.liftQ fun q => (f q).bind fun q => .ok ((), q)) (M.liftQ fun q => (g q).bind fun q => .ok ((), q)) := by
  intro p l c hr a c' l' e
  unfold M.liftQ at *
  simp only at *
  cases hg : g l with
  | ub => rw [hg] at e; cases e
  | hang => rw [hg] at e; cases e
  | ok l1 =>
    rw [hg] at e
    cases e
    obtain ⟨p', h1, h2⟩ := h p l l' hr hg
    rw [h1]
    exact ⟨p', rfl, h2⟩

theorem rRemoveLists (r : Nat) (skip : Option W) : Sim (Mdns.rRemoveLists r skip) (Mdns.rRemoveLists r skip) :=
  liftQ_unit fun _ _ _ h e => h.removeLists e

theorem rPush (w : W) (r : Nat) : Sim (Mdns.rPush w r) (Mdns.rPush w r) :=
  liftQ_unit fun _ _ _ h e => h.push e

theorem free (r : Nat) : Sim (M.liftQ fun q => (QOps.free r q).bind fun q => .ok ((), q))
    (M.liftQ fun q => (QOps.free r q).bind fun q => .ok ((), q)) :=
  liftQ_unit fun _ _ _ h e => h.free e

theorem pop (w : W) : Sim (M.liftQ fun q => (QOps.pop w q).bind fun q => .ok ((), q))
    (M.liftQ fun q => (QOps.pop w q).bind fun q => .ok ((), q)) :=
  liftQ_unit fun _ _ _ h e => h.pop e

theorem zapProbing (r : Nat) : Sim (M.liftQ fun q => (QOps.zapProbing r q).bind fun q => .ok ((), q))
    (M.liftQ fun q => (QOps.zapProbing r q).bind fun q => .ok ((), q)) :=
  liftQ_unit fun _ _ _ h e => h.zapProbing e

theorem linkNow (r : Nat) : Sim (M.liftQ fun q => (QOps.linkNow r q).bind fun q => .ok ((), q))
    (M.liftQ fun q => (QOps.linkNow r q).bind fun q => .ok ((), q)) :=
  liftQ_unit fun _ _ _ h e => h.linkNow e

theorem clearNow : Sim (M.liftQ fun q => (QOps.clearNow q).bind fun q => .ok ((), q))
    (M.liftQ fun q => (QOps.clearNow q).bind fun q => .ok ((), q)) :=
  liftQ_unit fun _ _ _ h e => h.clearNow e

theorem unlinkPublish (r : Nat) (a b : Option Nat) :
    Sim (M.liftQ fun q => (QOps.unlinkPublish r a b q).bind fun q => .ok ((), q))
    (M.liftQ fun q => (QOps.unlinkPublish r a b q).bind fun q => .ok ((), q)) :=
  liftQ_unit fun _ _ _ h e => h.unlinkPublish e

theorem unlinkProbing (r : Nat) (a : Option Nat) :
    Sim (M.liftQ fun q => (QOps.unlinkProbing r a q).bind fun q => .ok ((), q))
    (M.liftQ fun q => (QOps.unlinkProbing r a q).bind fun q => .ok ((), q)) :=
  liftQ_unit fun _ _ _ h e => h.unlinkProbing e

theorem alloc : Sim (M.liftQ fun q => .ok (QOps.alloc q)) (M.liftQ fun q => .ok (QOps.alloc q)) := by
  intro p l c h a c' l' e
  cases e
  obtain ⟨h1, h2⟩ := h.alloc
  refine ⟨(QOps.alloc p).2, ?_, h2⟩
  show Res.ok ((QOps.alloc p).1, (⟨c, (QOps.alloc p).2⟩ : D Ptrs)) = _
  rw [h1]
  rfl

theorem qHead (w : W) : Sim (Mdns.qHead w) (Mdns.qHead w) := by
  intro p l c h a c' l' e
  cases e
  refine ⟨p, ?_, h⟩
  rw [← h.head_eq w]
  rfl

theorem qFuel : Sim Mdns.qFuel Mdns.qFuel := by
  intro p l c h a c' l' e
  cases e
  refine ⟨p, ?_, h⟩
  rw [← h.fuel_eq]
  rfl

theorem qNext (w : W) (r : Nat) : Sim (Mdns.qNext w r) (Mdns.qNext w r) := by
  intro p l c h a c' l' e
  unfold Mdns.qNext M.liftQ at *
  simp only at *
  cases hg : QOps.next w r l with
  | ub => rw [hg] at e; cases e
  | hang => rw [hg] at e; cases e
  | ok x =>
    rw [hg] at e
    cases e
    have := h.next hg
    rw [this]
    exact ⟨p, rfl, h⟩

end Sim

/-- One step of a proof by following the structure; extended below for each function. -/
syntax "sim1" : tactic
macro_rules | `(tactic| sim1) => `(tactic| first
  | with_reducible apply Sim.pure | with_reducible apply Sim.ub | with_reducible apply Sim.hang | with_reducible apply Sim.core | with_reducible apply Sim.modC | with_reducible apply Sim.liftC
  | with_reducible apply Sim.getRec | with_reducible apply Sim.modRec | with_reducible apply Sim.rRemoveLists | with_reducible apply Sim.rPush | with_reducible apply Sim.free | with_reducible apply Sim.pop
  | with_reducible apply Sim.zapProbing | with_reducible apply Sim.linkNow | with_reducible apply Sim.clearNow | with_reducible apply Sim.unlinkPublish | with_reducible apply Sim.unlinkProbing
  | with_reducible apply Sim.alloc | with_reducible apply Sim.qHead | with_reducible apply Sim.qFuel | with_reducible apply Sim.qNext | with_reducible assumption
  | (with_reducible refine Sim.bind ?_ (fun _ => ?_)) | with_reducible apply Sim.ite)

/-- Follow the structure. -/
macro "sim" : tactic => `(tactic| repeat' (first | sim1 | (dsimp only; sim1)))

namespace Sim

theorem rPublish (r : Nat) : Sim (Mdns.rPublish r) (Mdns.rPublish r) := by
  unfold Mdns.rPublish
  sim
macro_rules | `(tactic| sim1) => `(tactic| with_reducible apply Sim.rPublish)

theorem rSend (r : Nat) : Sim (Mdns.rSend r) (Mdns.rSend r) := by
  unfold Mdns.rSend
  sim
macro_rules | `(tactic| sim1) => `(tactic| with_reducible apply Sim.rSend)

theorem uPush (r id : Nat) (to : Addr) : Sim (Mdns.uPush r id to) (Mdns.uPush r id to) := modC _
macro_rules | `(tactic| sim1) => `(tactic| with_reducible apply Sim.uPush)

theorem uRemove (r : Nat) : Sim (Mdns.uRemove r) (Mdns.uRemove r) := modC _
macro_rules | `(tactic| sim1) => `(tactic| with_reducible apply Sim.uRemove)

theorem freeRec (r : Nat) : Sim (Mdns.freeRec r) (Mdns.freeRec r) := by
  unfold Mdns.freeRec
  sim
macro_rules | `(tactic| sim1) => `(tactic| with_reducible apply Sim.freeRec)

theorem rDone (r : Nat) : Sim (Mdns.rDone r) (Mdns.rDone r) := by
  unfold Mdns.rDone
  sim
macro_rules | `(tactic| sim1) => `(tactic| with_reducible apply Sim.rDone)

theorem done (r : Nat) : Sim (Mdns.done r) (Mdns.done r) := by
  unfold Mdns.done
  sim
macro_rules | `(tactic| sim1) => `(tactic| with_reducible apply Sim.done)

theorem conflict (r : Nat) : Sim (Mdns.conflict r) (Mdns.conflict r) := by
  unfold Mdns.conflict
  sim
  rename_i x
  cases x.conflict <;> sim
macro_rules | `(tactic| sim1) => `(tactic| with_reducible apply Sim.conflict)

theorem rScan (host : Bytes) (type : Nat) : ∀ l, Sim (Mdns.rScan host type l) (Mdns.rScan host type l)
  | [] => pure _
  | r :: rest => by
    have ih := rScan host type rest
    unfold Mdns.rScan
    sim
macro_rules | `(tactic| sim1) => `(tactic| with_reducible apply Sim.rScan)

theorem rFirst (host : Bytes) (type : Nat) : Sim (Mdns.rFirst host type) (Mdns.rFirst host type) := by
  unfold Mdns.rFirst
  sim
macro_rules | `(tactic| sim1) => `(tactic| with_reducible apply Sim.rFirst)

theorem rBehind (r : Nat) : Sim (Mdns.rBehind r) (Mdns.rBehind r) := by
  unfold Mdns.rBehind
  sim
macro_rules | `(tactic| sim1) => `(tactic| with_reducible apply Sim.rBehind)

theorem rNext (r : Nat) (host : Bytes) (type : Nat) : Sim (Mdns.rNext r host type) (Mdns.rNext r host type) := by
  unfold Mdns.rNext
  sim
macro_rules | `(tactic| sim1) => `(tactic| with_reducible apply Sim.rNext)

theorem shared (host : Bytes) (type ttl : Nat) : Sim (Mdns.shared host type ttl) (Mdns.shared host type ttl) := by
  unfold Mdns.shared
  sim
macro_rules | `(tactic| sim1) => `(tactic| with_reducible apply Sim.shared)

theorem unique (host : Bytes) (type ttl : Nat) (cf : Option Nat) : Sim (Mdns.unique host type ttl cf) (Mdns.unique host type ttl cf) := by
  unfold Mdns.unique
  sim
macro_rules | `(tactic| sim1) => `(tactic| with_reducible apply Sim.unique)

theorem setRaw (r : Nat) (x : Bytes) : Sim (Mdns.setRaw r x) (Mdns.setRaw r x) := by
  unfold Mdns.setRaw
  sim
macro_rules | `(tactic| sim1) => `(tactic| with_reducible apply Sim.setRaw)

theorem setHost (r : Nat) (x : Bytes) : Sim (Mdns.setHost r x) (Mdns.setHost r x) := by
  unfold Mdns.setHost
  sim
macro_rules | `(tactic| sim1) => `(tactic| with_reducible apply Sim.setHost)

theorem setIp (r : Nat) (x : Ip4) : Sim (Mdns.setIp r x) (Mdns.setIp r x) := by
  unfold Mdns.setIp
  sim
macro_rules | `(tactic| sim1) => `(tactic| with_reducible apply Sim.setIp)

theorem setIpv6 (r : Nat) (x : Ip6) : Sim (Mdns.setIpv6 r x) (Mdns.setIpv6 r x) := by
  unfold Mdns.setIpv6
  sim
macro_rules | `(tactic| sim1) => `(tactic| with_reducible apply Sim.setIpv6)

theorem setSrv (r a b c : Nat) (x : Bytes) : Sim (Mdns.setSrv r a b c x) (Mdns.setSrv r a b c x) := by
  unfold Mdns.setSrv
  sim
macro_rules | `(tactic| sim1) => `(tactic| with_reducible apply Sim.setSrv)

theorem find_go (name : Bytes) (type : Nat) : ∀ l, Sim (Mdns.find.go name type l) (Mdns.find.go name type l)
  | [] => pure _
  | r :: rest => by
    have ih := find_go name type rest
    unfold Mdns.find.go
    sim
macro_rules | `(tactic| sim1) => `(tactic| with_reducible apply Sim.find_go)

theorem find (name : Bytes) (type : Nat) : Sim (Mdns.find name type) (Mdns.find name type) := by
  unfold Mdns.find
  sim
macro_rules | `(tactic| sim1) => `(tactic| with_reducible apply Sim.find)

theorem getPublished (name : Bytes) : Sim (Mdns.getPublished name) (Mdns.getPublished name) := by
  unfold Mdns.getPublished
  sim
macro_rules | `(tactic| sim1) => `(tactic| with_reducible apply Sim.getPublished)

theorem hasAddr (host : Bytes) (type : Nat) (w : Ip) : ∀ l, Sim (Mdns.hasAddr host type w l) (Mdns.hasAddr host type w l)
  | [] => pure _
  | r :: rest => by
    have ih := hasAddr host type w rest
    unfold Mdns.hasAddr
    sim
macro_rules | `(tactic| sim1) => `(tactic| with_reducible apply Sim.hasAddr)

theorem setAddr (r : Nat) : ∀ x, Sim (Mdns.setAddr r x) (Mdns.setAddr r x)
  | .v4 a => setIp r a
  | .v6 a => setIpv6 r a
macro_rules | `(tactic| sim1) => `(tactic| with_reducible apply Sim.setAddr)

theorem addAddrs (host : Bytes) (type ttl : Nat) : ∀ l, Sim (Mdns.addAddrs host type ttl l) (Mdns.addAddrs host type ttl l)
  | [] => pure _
  | a :: rest => by
    have ih := addAddrs host type ttl rest
    unfold Mdns.addAddrs
    sim
macro_rules | `(tactic| sim1) => `(tactic| with_reducible apply Sim.addAddrs)

theorem dropAddrs (host : Bytes) (type : Nat) (w : List Ip) : ∀ n o,
    Sim (Mdns.dropAddrs host type w n o) (Mdns.dropAddrs host type w n o)
  | 0, none => pure _
  | _ + 1, none => pure _
  | 0, some _ => hang
  | n + 1, some cur => by
    have ih := dropAddrs host type w n
    unfold Mdns.dropAddrs
    sim
    all_goals exact ih _
macro_rules | `(tactic| sim1) => `(tactic| with_reducible apply Sim.dropAddrs)

theorem updateAddrs (host : Bytes) (type : Nat) (w : List Ip) : Sim (Mdns.updateAddrs host type w) (Mdns.updateAddrs host type w) := by
  unfold Mdns.updateAddrs
  refine bind (find _ _) fun f => ?_
  cases f <;> sim
macro_rules | `(tactic| sim1) => `(tactic| with_reducible apply Sim.updateAddrs)

theorem setAddressesForHost (host : Bytes) (a : List Ip4) :
    Sim (Mdns.setAddressesForHost host a) (Mdns.setAddressesForHost host a) := updateAddrs _ _ _
macro_rules | `(tactic| sim1) => `(tactic| with_reducible apply Sim.setAddressesForHost)

theorem setIpv6AddressesForHost (host : Bytes) (a : List Ip6) :
    Sim (Mdns.setIpv6AddressesForHost host a) (Mdns.setIpv6AddressesForHost host a) := updateAddrs _ _ _
macro_rules | `(tactic| sim1) => `(tactic| with_reducible apply Sim.setIpv6AddressesForHost)

theorem hostNames : ∀ l acc, Sim (Mdns.hostNames l acc) (Mdns.hostNames l acc)
  | [], _ => pure _
  | r :: rest, acc => by
    have ih := hostNames rest
    unfold Mdns.hostNames
    sim
    all_goals exact ih _
macro_rules | `(tactic| sim1) => `(tactic| with_reducible apply Sim.hostNames)

theorem setInterface_go (v4 : List Ip4) (v6 : List Ip6) : ∀ l,
    Sim (Mdns.setInterfaceAddresses.go v4 v6 l) (Mdns.setInterfaceAddresses.go v4 v6 l)
  | [] => pure _
  | h :: rest => by
    have ih := setInterface_go v4 v6 rest
    unfold Mdns.setInterfaceAddresses.go
    sim
macro_rules | `(tactic| sim1) => `(tactic| with_reducible apply Sim.setInterface_go)

theorem setInterfaceAddresses (a : List Ip4) (b : List Ip6) : Sim (Mdns.setInterfaceAddresses a b) (Mdns.setInterfaceAddresses a b) := by
  unfold Mdns.setInterfaceAddresses
  sim
macro_rules | `(tactic| sim1) => `(tactic| with_reducible apply Sim.setInterfaceAddresses)

theorem bye (r : Nat) : Sim (Mdns.bye r) (Mdns.bye r) := by
  unfold Mdns.bye
  sim
macro_rules | `(tactic| sim1) => `(tactic| with_reducible apply Sim.bye)

theorem forRecs {f : Nat → M Ptrs Unit} {g : Nat → M Lists Unit} (h : ∀ r, Sim (f r) (g r)) : ∀ l,
    Sim (Mdns.forRecs f l) (Mdns.forRecs g l)
  | [] => pure _
  | r :: rest => by
    have ih := forRecs h rest
    unfold Mdns.forRecs
    exact bind (h r) fun _ => ih
macro_rules | `(tactic| sim1) => `(tactic| (with_reducible refine Sim.forRecs (fun _ => ?_) _))

theorem setAddress (a : Ip4) : Sim (Mdns.setAddress a) (Mdns.setAddress a) := by
  unfold Mdns.setAddress
  sim
macro_rules | `(tactic| sim1) => `(tactic| with_reducible apply Sim.setAddress)

theorem setIpv6Address (a : Ip6) : Sim (Mdns.setIpv6Address a) (Mdns.setIpv6Address a) := by
  unfold Mdns.setIpv6Address
  sim
macro_rules | `(tactic| sim1) => `(tactic| with_reducible apply Sim.setIpv6Address)

theorem shutdown  : Sim (Mdns.shutdown) (Mdns.shutdown) := by
  unfold Mdns.shutdown
  sim
macro_rules | `(tactic| sim1) => `(tactic| with_reducible apply Sim.shutdown)

theorem recordsClear  : Sim (Mdns.recordsClear) (Mdns.recordsClear) := by
  unfold Mdns.recordsClear
  sim
macro_rules | `(tactic| sim1) => `(tactic| with_reducible apply Sim.recordsClear)

theorem isLocal (env : Env) (src : Addr) : Sim (Mdns.isLocal env src) (Mdns.isLocal env src) := by
  unfold Mdns.isLocal
  sim
macro_rules | `(tactic| sim1) => `(tactic| with_reducible apply Sim.isLocal)

theorem probeConflict (env : Env) (src : Addr) (q : Question) (r : Nat) : ∀ l did,
    Sim (Mdns.probeConflict env src q r l did) (Mdns.probeConflict env src q r l did)
  | [], _ => pure _
  | a :: rest, did => by
    have ih := probeConflict env src q r rest
    unfold Mdns.probeConflict
    sim
    all_goals exact ih _
macro_rules | `(tactic| sim1) => `(tactic| with_reducible apply Sim.probeConflict)

theorem knownAnswer (q : Question) (r : Nat) : ∀ l, Sim (Mdns.knownAnswer q r l) (Mdns.knownAnswer q r l)
  | [] => pure _
  | a :: rest => by
    have ih := knownAnswer q r rest
    unfold Mdns.knownAnswer
    sim
macro_rules | `(tactic| sim1) => `(tactic| with_reducible apply Sim.knownAnswer)

theorem answerLoop (env : Env) (src : Addr) (q : Question) (an : List Resource) : ∀ n o did conf,
    Sim (Mdns.answerLoop env src q an n o did conf) (Mdns.answerLoop env src q an n o did conf)
  | 0, none, _, _ => pure _
  | _ + 1, none, _, _ => pure _
  | 0, some _, _, _ => hang
  | n + 1, some r, did, conf => by
    have ih := answerLoop env src q an n
    unfold Mdns.answerLoop
    sim
    all_goals exact ih _ _ _
macro_rules | `(tactic| sim1) => `(tactic| with_reducible apply Sim.answerLoop)

theorem discoLoop (q : Question) : ∀ n o, Sim (Mdns.discoLoop q n o) (Mdns.discoLoop q n o)
  | 0, none => pure _
  | _ + 1, none => pure _
  | 0, some _ => hang
  | n + 1, some r => by
    have ih := discoLoop q n
    unfold Mdns.discoLoop
    sim
    all_goals exact ih _
macro_rules | `(tactic| sim1) => `(tactic| with_reducible apply Sim.discoLoop)

theorem inQuestion (env : Env) (m : Msg) (src : Addr) (q : Question) (did : Bool) :
    Sim (Mdns.inQuestion env m src q did) (Mdns.inQuestion env m src q did) := by
  unfold Mdns.inQuestion
  refine bind core fun c => ite (pure _) (bind (rFirst _ _) fun r => ?_)
  cases r <;> sim
macro_rules | `(tactic| sim1) => `(tactic| with_reducible apply Sim.inQuestion)

theorem inQuestions (env : Env) (m : Msg) (src : Addr) : ∀ l did,
    Sim (Mdns.inQuestions env m src l did) (Mdns.inQuestions env m src l did)
  | [], _ => pure _
  | q :: rest, did => by
    have ih := inQuestions env m src rest
    unfold Mdns.inQuestions
    sim
    all_goals exact ih _
macro_rules | `(tactic| sim1) => `(tactic| with_reducible apply Sim.inQuestions)

theorem inAnswer_rest (env : Env) (src : Addr) (a : Resource) : Sim (Mdns.inAnswer.rest env src a) (Mdns.inAnswer.rest env src a) := by
  unfold Mdns.inAnswer.rest
  sim
macro_rules | `(tactic| sim1) => `(tactic| with_reducible apply Sim.inAnswer_rest)

theorem inAnswer (env : Env) (src : Addr) (a : Resource) (did : Bool) :
    Sim (Mdns.inAnswer env src a did) (Mdns.inAnswer env src a did) := by
  unfold Mdns.inAnswer
  refine bind (rFirst _ _) fun r => ?_
  have key : ∀ bad : Option Nat, Sim
      (match bad with
      | none => do
        Mdns.inAnswer.rest env src a
        Pure.pure did
      | some r => do
        if !did then M.modC (refreshLocals env true)
        if ← Mdns.isLocal env src then Pure.pure true
        else do
          Mdns.conflict r
          Mdns.inAnswer.rest env src a
          Pure.pure true)
      (match bad with
      | none => do
        Mdns.inAnswer.rest env src a
        Pure.pure did
      | some r => do
        if !did then M.modC (refreshLocals env true)
        if ← Mdns.isLocal env src then Pure.pure true
        else do
          Mdns.conflict r
          Mdns.inAnswer.rest env src a
          Pure.pure true) := by
    intro bad
    cases bad <;> sim
  cases r
  · exact bind (pure _) key
  · exact bind (getRec _) fun x => bind (pure _) key
macro_rules | `(tactic| sim1) => `(tactic| with_reducible apply Sim.inAnswer)

theorem inAnswers (env : Env) (src : Addr) : ∀ l did,
    Sim (Mdns.inAnswers env src l did) (Mdns.inAnswers env src l did)
  | [], _ => pure _
  | q :: rest, did => by
    have ih := inAnswers env src rest
    unfold Mdns.inAnswers
    sim
    all_goals exact ih _
macro_rules | `(tactic| sim1) => `(tactic| with_reducible apply Sim.inAnswers)

theorem inMsg (env : Env) (now : TV) (m : Msg) (src : Addr) : Sim (Mdns.inMsg env now m src) (Mdns.inMsg env now m src) := by
  unfold Mdns.inMsg
  sim
macro_rules | `(tactic| sim1) => `(tactic| with_reducible apply Sim.inMsg)

theorem ar (m : Out) (seen : List Nat) (r : Nat) : Sim (Mdns.ar m seen r) (Mdns.ar m seen r) := by
  unfold Mdns.ar
  sim
macro_rules | `(tactic| sim1) => `(tactic| with_reducible apply Sim.ar)

theorem arAddrLoop (host : Bytes) : ∀ l m seen, Sim (Mdns.arAddrLoop host l m seen) (Mdns.arAddrLoop host l m seen)
  | [], _, _ => pure _
  | r :: rest, m, seen => by
    have ih := arAddrLoop host rest
    unfold Mdns.arAddrLoop
    sim
    all_goals exact ih _ _
macro_rules | `(tactic| sim1) => `(tactic| with_reducible apply Sim.arAddrLoop)

theorem arAddr (host : Option Bytes) (m : Out) (seen : List Nat) : Sim (Mdns.arAddr host m seen) (Mdns.arAddr host m seen) := by
  unfold Mdns.arAddr
  cases host <;> sim
macro_rules | `(tactic| sim1) => `(tactic| with_reducible apply Sim.arAddr)

theorem additionalLoop (name : Bytes) : ∀ l m seen, Sim (Mdns.additionalLoop name l m seen) (Mdns.additionalLoop name l m seen)
  | [], _, _ => pure _
  | r :: rest, m, seen => by
    have ih := additionalLoop name rest
    unfold Mdns.additionalLoop
    sim
    all_goals exact ih _ _
macro_rules | `(tactic| sim1) => `(tactic| with_reducible apply Sim.additionalLoop)

theorem additional (m : Out) (seen : List Nat) (r : Nat) : Sim (Mdns.additional m seen r) (Mdns.additional m seen r) := by
  unfold Mdns.additional
  refine bind (getRec _) fun x => ite (arAddr _ _ _) ?_
  cases x.rr.rdname <;> sim
macro_rules | `(tactic| sim1) => `(tactic| with_reducible apply Sim.additional)

theorem additionals : ∀ l m seen, Sim (Mdns.additionals l m seen) (Mdns.additionals l m seen)
  | [], _, _ => pure _
  | r :: rest, m, seen => by
    have ih := additionals rest
    unfold Mdns.additionals
    sim
    all_goals exact ih _ _
macro_rules | `(tactic| sim1) => `(tactic| with_reducible apply Sim.additionals)

theorem rOut (w : W) : ∀ n m seen ret, Sim (Mdns.rOut w n m seen ret) (Mdns.rOut w n m seen ret)
  | 0, m, seen, ret => by
    unfold Mdns.rOut
    refine bind (qHead _) fun o => ?_
    cases o <;> sim
  | n + 1, m, seen, ret => by
    have ih := rOut w n
    unfold Mdns.rOut
    refine bind (qHead _) fun o => ?_
    cases o
    · exact pure _
    · sim
      all_goals exact ih _ _ _
macro_rules | `(tactic| sim1) => `(tactic| with_reducible apply Sim.rOut)

theorem publishLoop : ∀ n o last m seen ret, Sim (Mdns.publishLoop n o last m seen ret) (Mdns.publishLoop n o last m seen ret)
  | 0, none, _, _, _, _ => pure _
  | _ + 1, none, _, _, _, _ => pure _
  | 0, some _, _, _, _, _ => hang
  | n + 1, some r, last, m, seen, ret => by
    have ih := publishLoop n
    unfold Mdns.publishLoop
    sim
    all_goals exact ih _ _ _ _ _
macro_rules | `(tactic| sim1) => `(tactic| with_reducible apply Sim.publishLoop)

theorem outPublish (m : Out) (seen : List Nat) (ret : Nat) : Sim (Mdns.outPublish m seen ret) (Mdns.outPublish m seen ret) := by
  unfold Mdns.outPublish
  sim
macro_rules | `(tactic| sim1) => `(tactic| with_reducible apply Sim.outPublish)

theorem probeAsk : ∀ n o last m, Sim (Mdns.probeAsk n o last m) (Mdns.probeAsk n o last m)
  | 0, none, _, _ => pure _
  | _ + 1, none, _, _ => pure _
  | 0, some _, _, _ => hang
  | n + 1, some r, last, m => by
    have ih := probeAsk n
    unfold Mdns.probeAsk
    sim
    all_goals exact ih _ _ _
macro_rules | `(tactic| sim1) => `(tactic| with_reducible apply Sim.probeAsk)

theorem probeAnswer : ∀ n o m ret, Sim (Mdns.probeAnswer n o m ret) (Mdns.probeAnswer n o m ret)
  | 0, none, _, _ => pure _
  | _ + 1, none, _, _ => pure _
  | 0, some _, _, _ => hang
  | n + 1, some r, m, ret => by
    have ih := probeAnswer n
    unfold Mdns.probeAnswer
    sim
    all_goals exact ih _ _ _
macro_rules | `(tactic| sim1) => `(tactic| with_reducible apply Sim.probeAnswer)

theorem outProbe (m : Out) : Sim (Mdns.outProbe m) (Mdns.outProbe m) := by
  unfold Mdns.outProbe
  sim
macro_rules | `(tactic| sim1) => `(tactic| with_reducible apply Sim.outProbe)

theorem outUnicast (u : Unicast) : Sim (Mdns.outUnicast u) (Mdns.outUnicast u) := by
  unfold Mdns.outUnicast
  sim
macro_rules | `(tactic| sim1) => `(tactic| with_reducible apply Sim.outUnicast)

theorem outRest (env : Env) (m : Out) (seen : List Nat) (ret : Nat) : Sim (Mdns.outRest env m seen ret) (Mdns.outRest env m seen ret) := by
  unfold Mdns.outRest
  sim
macro_rules | `(tactic| sim1) => `(tactic| with_reducible apply Sim.outRest)

theorem outMsg (env : Env) (now : TV) : Sim (Mdns.outMsg env now) (Mdns.outMsg env now) := by
  unfold Mdns.outMsg
  refine bind (modC _) fun _ => bind core fun c => ?_
  cases c.uanswers <;> sim
macro_rules | `(tactic| sim1) => `(tactic| with_reducible apply Sim.outMsg)

theorem retSleep (t : TV) : Sim (Mdns.retSleep t) (Mdns.retSleep t) := by
  unfold Mdns.retSleep
  sim
macro_rules | `(tactic| sim1) => `(tactic| with_reducible apply Sim.retSleep)

theorem republish (c : Core) : ∀ l e, Sim (Mdns.republish c l e) (Mdns.republish c l e)
  | [], _ => pure _
  | i :: rest, e => by
    have ih := republish c rest
    unfold Mdns.republish
    cases (c.published i).head?
    · exact ih _
    · sim
      all_goals exact ih _
macro_rules | `(tactic| sim1) => `(tactic| with_reducible apply Sim.republish)

theorem sleep (now : TV) : Sim (Mdns.sleep now) (Mdns.sleep now) := by
  unfold Mdns.sleep
  sim
macro_rules | `(tactic| sim1) => `(tactic| with_reducible apply Sim.sleep)

/-- Every call. -/
theorem step (env : Env) (o : Op) : Sim (Mdns.step env o) (Mdns.step env o) := by
  cases o <;> unfold Mdns.step <;> sim
macro_rules | `(tactic| sim1) => `(tactic| with_reducible apply Sim.step)

/-- Every sequence of calls. -/
theorem run (env : Env) : ∀ l, Sim (Mdns.run env l) (Mdns.run env l)
  | [] => pure _
  | o :: rest => by
    have ih := run env rest
    unfold Mdns.run
    sim

end Sim
end Mdns
