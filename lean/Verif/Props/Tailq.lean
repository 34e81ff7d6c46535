import Verif.Lemmas.Tailq
import Verif.Props.Process

/-!
# C104: the list of interfaces is sound
-/

namespace Mdns.Tailq

open Mdns.Proc
open Mdns.Iface (Iface Ifa)

variable {α β : Type}

/-- What the daemon does is seen without its memory. -/
def seen : R (α × Heap) → R α
  | .ok a s => .ok a.1 s
  | .exit s => .exit s
  | .ub => .ub
  | .large => .large

/-- The daemon up to the end of some rounds of its loop. -/
def upTo (ifname : Option Bytes) (e : Proc.Env) (l : Option (List Ifa)) (k : Sock) (evs : List Ev) : P (Option Nat) := do
  sysInit ifname e l
  let nl ← lift (socket e k)
  rounds ifname nl evs
  pure nl

theorem Sim.seen {p : P Unit} {m : Proc.M Unit} {h : Heap} {Q : Unit → Heap → Unit → Prop} (n : Sim p m h Q) (s : Sys) :
    seen (p h s) = m s := by
  have := n s
  cases hm : m s with
  | ok b s' =>
    rw [hm] at this
    obtain ⟨a, h', e, _⟩ := this
    rw [e]
    rfl
  | exit s' => rw [hm] at this; simp only at this; rw [this]; rfl
  | ub => rw [hm] at this; simp only at this; rw [this]; rfl
  | large => rw [hm] at this; simp only at this; rw [this]; rfl

theorem Sim.ends {p : P α} {m : Proc.M β} {h h' : Heap} {Q : α → Heap → β → Prop} (n : Sim p m h Q) {s s' : Sys} {a : α}
    (e : p h s = .ok (a, h') s') : ∃ b, m s = .ok b s' ∧ Q a h' b := by
  have := n s
  cases hm : m s with
  | ok b s1 =>
    rw [hm] at this
    obtain ⟨a1, h1, e1, q⟩ := this
    rw [e] at e1
    cases e1
    exact ⟨b, rfl, q⟩
  | exit s1 => rw [hm] at this; simp only at this; rw [this] at e; cases e
  | ub => rw [hm] at this; simp only at this; rw [this] at e; cases e
  | large => rw [hm] at this; simp only at this; rw [this] at e; cases e

theorem upTo_sim (ifname : Option Bytes) (e : Proc.Env) (es : Option (List Ifa)) (k : Sock) (evs : List Ev) :
    Sim (upTo ifname e es k evs) (Proc.upTo ifname e es k evs) {} (fun nl h r => nl = r.1 ∧ ∃ l, Rep h l ∧ l.map (·.2) = r.2) := by
  have e1 : Proc.upTo ifname e es k evs = (Proc.sysInit ifname e es [] >>= fun t => socket e k >>= fun nl =>
      Proc.rounds ifname nl evs t >>= fun t => Pure.pure (nl, t)) := by
    funext s
    unfold Proc.upTo start
    simp only [Bind.bind]
    cases Proc.sysInit ifname e es [] s with
    | ok t s =>
      simp only
      cases socket e k s <;> rfl
    | exit s => rfl
    | ub => rfl
    | large => rfl
  rw [e1]
  refine Sim.bind (sysInit_sim ifname e es Rep.empty) ?_
  rintro _ h1 t ⟨l1, r1, rfl⟩
  refine Sim.bind Sim.lift ?_
  rintro nl _ _ ⟨rfl, rfl⟩
  refine Sim.bind (rounds_sim ifname nl evs _ l1 r1) ?_
  rintro _ h2 t ⟨l2, r2, rfl⟩
  exact Sim.pure ⟨rfl, l2, r2, rfl⟩

/-! ### C104 -/

/-- **C104.** With its list of cells and pointers the daemon does what it would do with a list of interfaces that is
walked from its beginning to its end: the same calls of the system with the same results, and the same end. -/
theorem C104_same (ifname : Option Bytes) (e : Proc.Env) (l : Option (List Ifa)) (k : Sock) (evs : List Ev) (s : Sys) :
    seen (main ifname e l k evs {} s) = Proc.main ifname e l k evs s := (main_sim ifname e l k evs).seen s

/-- The chain of the cells from `p` along the links: their numbers and what they hold. -/
inductive Chain (h : Heap) : Option Nat → List (Nat × Slot) → Prop where
  | nil : Chain h none []
  | cons {n : Nat} {c : Cell} {l : List (Nat × Slot)} : h.cell n = some c → Chain h c.next l → Chain h (some n) ((n, c.slot) :: l)

theorem Seg.chain {h : Heap} : ∀ {l : List (Nat × Slot)} {p : Option Nat}, Seg h p l none → Chain h (ids l).head? l
  | [], _, _ => .nil
  | (n, x) :: b, p, ⟨e, s⟩ => Chain.cons (h := h) (c := ⟨x, _, _⟩) e (by simpa using s.chain)

/-- **C104.** After any number of rounds the links lead through all interfaces that are in memory, each once, and to no
other place; these are the interfaces of the daemon with a list. -/
theorem C104_chain (ifname : Option Bytes) (e : Proc.Env) (l : Option (List Ifa)) (k : Sock) (evs : List Ev)
    (nl : Option Nat) (h : Heap) (s : Sys) (hr : upTo ifname e l k evs {} {} = .ok (nl, h) s) :
    ∃ t, Chain h h.first t ∧ (t.map (·.1)).Nodup ∧ (∀ n, (h.cell n).isSome ↔ n ∈ t.map (·.1)) ∧
      Proc.upTo ifname e l k evs {} = .ok (nl, t.map (·.2)) s := by
  obtain ⟨⟨nl', t'⟩, e1, rfl, t, r, rfl⟩ := (upTo_sim ifname e l k evs).ends hr
  refine ⟨t, ?_, r.nodup, ?_, e1⟩
  · rw [r.first]; exact r.cells.chain
  · intro n
    refine ⟨fun i => Classical.byContradiction fun m => ?_, fun m => ?_⟩
    · rw [r.dead n m] at i; cases i
    · obtain ⟨⟨n', x⟩, hx, rfl⟩ := List.mem_map.mp m
      obtain ⟨a, b, rfl⟩ := List.append_of_mem hx
      rw [r.at]; rfl

/-- **C104.** No interface is left when the daemon ends. -/
theorem C104_freed (ifname : Option Bytes) (e : Proc.Env) (l : Option (List Ifa)) (k : Sock) (evs : List Ev) (h : Heap) (s : Sys)
    (hr : main ifname e l k evs {} {} = .ok ((), h) s) (n : Nat) : h.cell n = none := by
  obtain ⟨_, _, r⟩ := (main_sim ifname e l k evs).ends hr
  exact r.dead n (by simp)

/-- **C104.** No interface is used after it was freed, no two have the same name, and the open sockets are theirs.
Partial: addresses 0.0.0.0 and `::` are excluded, see `C70_zero_address_counterexample`. -/
theorem C104_safe_partial (ifname : Option Bytes) (e : Proc.Env) (l : Option (List Ifa)) (k : Sock) (evs : List Ev)
    (hc : ∀ c ∈ (e, l) :: evs.flatMap Ev.calls, c.1.Fresh ∧ Iface.AllProper c.2) :
    main ifname e l k evs {} {} ≠ .ub ∧ ∀ nl h s, upTo ifname e l k evs {} {} = .ok (nl, h) s →
      ∃ t, Chain h h.first t ∧ (t.map (·.2.i.name)).Nodup ∧
        s.fds.Perm (t.flatMap (fun x => x.2.sd.toList ++ x.2.sd6.toList) ++ nl.toList) := by
  refine ⟨fun e1 => (C70_released_partial ifname e l k evs hc).1 ?_, fun nl h s hr => ?_⟩
  · rw [← C104_same, e1]; rfl
  · obtain ⟨t, h1, _, _, e1⟩ := C104_chain ifname e l k evs nl h s hr
    have hh := C70_held_partial ifname e l k evs hc _ _ _ e1
    exact ⟨t, h1, by simpa [Function.comp_def] using hh.2.2.2.2.1, by simpa [List.flatMap_map] using hh.1⟩

/-! ### A sample -/

/-- What is in the cells. -/
def cells : R (Option Nat × Heap) → List (Nat × Option (Bytes × Option Nat × Loc))
  | .ok r _ => (List.range r.2.fresh).map fun n => (n, (r.2.cell n).map fun c => (c.slot.i.name, c.next, c.prev))
  | _ => []

example : cells (upTo none fine (some twoList) .bound [] {} {}) =
    [(0, some ([0x65], some 1, .head)), (1, some ([0x77], none, .cell 0))] := by decide +kernel

/-- The first interface was given up and has come back. -/
example : cells (upTo none fine (some twoList) .bound eventful {} {}) =
    [(0, none), (1, some ([0x77], some 2, .head)), (2, some ([0x65], none, .cell 1))] := by decide +kernel

/-- With `-i` the cell is kept from one address to the next. -/
example : cells (upTo (some [0x77]) fine (some twoList) .bound eventful {} {}) =
    [(0, some ([0x77], none, .head))] := by decide +kernel

example : ∀ c ∈ (fine, some twoList) :: eventful.flatMap Ev.calls, c.1.Fresh ∧ Iface.AllProper c.2 := by
  intro c m
  have : c = (fine, some twoList) := by
    simp [eventful, Ev.calls] at m
    exact m
  rw [this]
  exact ⟨fine_fresh, two_proper⟩

end Mdns.Tailq
