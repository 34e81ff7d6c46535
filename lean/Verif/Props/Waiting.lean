import Verif.Model.Waiting
import Verif.Props.Process

/-!
# C120: what `mdnsd` waits for
-/

namespace Mdns.Proc

open Mdns.Iface (Iface Ifa)

/-- The descriptors a packet or a message for the daemon can come from: the netlink socket, and those of the interfaces
in use that have an IPv4 socket. -/
def Watched (nl : Option Nat) (t : List Slot) (fd : Nat) : Prop :=
  nl = some fd ∨ ∃ x ∈ t, x.i.unused = false ∧ x.sd.isSome ∧ (x.sd = some fd ∨ x.sd6 = some fd)

/-- Nothing is waited for but descriptor 0. -/
def OnlyZero (nl : Option Nat) (t : List Slot) : Prop := ∀ fd, Watched nl t fd → fd = 0

/-- While descriptors are collected, `nfds` is the largest. -/
structure Waits.Max (w : Waits) : Prop where
  bound : ∀ fd ∈ w.fds, fd ≤ w.nfds
  hit : w.nfds = 0 ∨ w.nfds ∈ w.fds

theorem Waits.Max.add {w : Waits} (h : w.Max) (fd : Nat) : (w.add fd).Max := by
  unfold Waits.add
  constructor
  · intro d m
    show d ≤ if fd > w.nfds then fd else w.nfds
    rcases List.mem_cons.1 m with rfl | m
    · split <;> omega
    · have := h.bound d m
      split <;> omega
  · show (if fd > w.nfds then fd else w.nfds) = 0 ∨ (if fd > w.nfds then fd else w.nfds) ∈ fd :: w.fds
    split
    · exact .inr (by simp)
    · exact h.hit.imp id (List.mem_cons_of_mem _)

theorem Waits.Max.addSome {w : Waits} (h : w.Max) : ∀ o, (w.addSome o).Max
  | none => h
  | some fd => h.add fd

theorem Waits.mem_addSome (w : Waits) (o : Option Nat) (fd : Nat) : fd ∈ (w.addSome o).fds ↔ o = some fd ∨ fd ∈ w.fds := by
  cases o with
  | none => simp [Waits.addSome]
  | some d => simp [Waits.addSome, Waits.add, eq_comm]

theorem Waits.iface_spec {w : Waits} (h : w.Max) (x : Slot) : (w.iface x).Max ∧
    ∀ fd, fd ∈ (w.iface x).fds ↔ fd ∈ w.fds ∨ x.i.unused = false ∧ x.sd.isSome ∧ (x.sd = some fd ∨ x.sd6 = some fd) := by
  unfold Waits.iface
  cases hs : x.sd with
  | none => simp [h]
  | some d =>
    dsimp only
    cases hu : x.i.unused with
    | true => simp [h]
    | false =>
      rw [if_neg (by simp)]
      refine ⟨(h.add d).addSome _, fun fd => ?_⟩
      rw [Waits.mem_addSome]
      simp only [Waits.add, List.mem_cons, Option.isSome_some, Option.some.injEq, true_and]
      constructor
      · rintro (h | rfl | h)
        · exact .inr (.inr h)
        · exact .inr (.inl rfl)
        · exact .inl h
      · rintro (h | h | h)
        · exact .inr (.inr h)
        · exact .inr (.inl h.symm)
        · exact .inl h

theorem ifaces_spec (t : List Slot) : ∀ {w : Waits}, w.Max → (t.foldl Waits.iface w).Max ∧
    ∀ fd, fd ∈ (t.foldl Waits.iface w).fds ↔ fd ∈ w.fds ∨
      ∃ x ∈ t, x.i.unused = false ∧ x.sd.isSome ∧ (x.sd = some fd ∨ x.sd6 = some fd) := by
  induction t with
  | nil => intro w h; simp [h]
  | cons x t ih =>
    intro w h
    obtain ⟨h1, h2⟩ := Waits.iface_spec h x
    obtain ⟨h3, h4⟩ := ih h1
    refine ⟨h3, fun fd => ?_⟩
    rw [List.foldl_cons, h4, h2]
    constructor
    · rintro ((h | h) | ⟨y, m, h⟩)
      · exact .inl h
      · exact .inr ⟨x, .head _, h⟩
      · exact .inr ⟨y, .tail _ m, h⟩
    · rintro (h | ⟨y, m, h⟩)
      · exact .inl (.inl h)
      · rcases List.mem_cons.1 m with rfl | m
        · exact .inl (.inr h)
        · exact .inr ⟨y, m, h⟩

theorem collect_spec (nl : Option Nat) (t : List Slot) :
    (∀ fd, fd ∈ (collect nl t).fds ↔ Watched nl t fd) ∧
    (¬ OnlyZero nl t → ∀ fd, Watched nl t fd → fd < (collect nl t).nfds) ∧
    (OnlyZero nl t → (collect nl t).nfds = 0) ∧
    ((collect nl t).nfds = 0 ∨ Watched nl t ((collect nl t).nfds - 1)) := by
  have h0 : (({} : Waits).addSome nl).Max := Waits.Max.addSome ⟨by simp, .inl rfl⟩ nl
  obtain ⟨h1, h2⟩ := ifaces_spec t h0
  have hm : ∀ fd, fd ∈ (t.foldl Waits.iface (({} : Waits).addSome nl)).fds ↔ Watched nl t fd := by
    intro fd
    rw [h2, Waits.mem_addSome]
    unfold Watched
    simp
  unfold collect
  dsimp only
  refine ⟨hm, fun hz fd hw => ?_, fun hz => ?_, ?_⟩
  · obtain ⟨d, hd, hne⟩ : ∃ d, Watched nl t d ∧ d ≠ 0 :=
      Classical.byContradiction fun h => hz fun d hd => Classical.byContradiction fun hn => h ⟨d, hd, hn⟩
    have b1 := h1.bound d ((hm d).2 hd)
    have b2 := h1.bound fd ((hm fd).2 hw)
    rw [if_pos (by omega)]
    omega
  · rcases h1.hit with h | h
    · rw [h]; rfl
    · rw [hz _ ((hm _).1 h)]; rfl
  · rcases h1.hit with h | h
    · rw [h]; exact .inl rfl
    · by_cases hn : (t.foldl Waits.iface (({} : Waits).addSome nl)).nfds > 0
      · rw [if_pos hn]
        exact .inr ((hm _).1 h)
      · rw [if_neg hn]
        exact .inl (by omega)

/-- **C120 (wakes).** Unless descriptor 0 is all there is to wait for: the daemon wakes up exactly when there is something to
read for it, and is then told correctly for each of its sockets whether this is so. -/
theorem C120_wakes_partial (nl : Option Nat) (t : List Slot) (ready rest : Nat → Bool) (hz : ¬ OnlyZero nl t) :
    ((collect nl t).wakes ready = true ↔ ∃ fd, Watched nl t fd ∧ ready fd = true) ∧
    ∀ fd, Watched nl t fd → (collect nl t).isSet ready rest fd = ready fd := by
  obtain ⟨h1, h2, -⟩ := collect_spec nl t
  constructor
  · unfold Waits.wakes
    rw [List.any_eq_true]
    constructor
    · rintro ⟨fd, m, h⟩
      rw [Bool.and_eq_true] at h
      exact ⟨fd, (h1 fd).1 m, h.2⟩
    · rintro ⟨fd, m, h⟩
      exact ⟨fd, (h1 fd).2 m, by rw [h, decide_eq_true (h2 hz fd m)]; rfl⟩
  · intro fd m
    unfold Waits.isSet
    rw [if_pos (h2 hz fd m), List.contains_iff_mem.2 ((h1 fd).2 m)]
    rfl

/-- **C120 (number).** The number given to `select` is one more than the largest descriptor waited for. -/
theorem C120_number (nl : Option Nat) (t : List Slot) : ¬ OnlyZero nl t →
    Watched nl t ((collect nl t).nfds - 1) ∧ ∀ fd, Watched nl t fd → fd + 1 ≤ (collect nl t).nfds := by
  intro hz
  obtain ⟨-, h2, -, h4⟩ := collect_spec nl t
  refine ⟨h4.resolve_left fun h0 => hz fun fd hw => ?_, fun fd hw => h2 hz fd hw⟩
  have := h2 hz fd hw
  omega

/-- **C120 (zero).** If it is, the daemon does not wake up whatever comes. -/
theorem C120_zero (nl : Option Nat) (t : List Slot) (hz : OnlyZero nl t) (ready : Nat → Bool) :
    (collect nl t).wakes ready = false := by
  obtain ⟨-, -, h3, -⟩ := collect_spec nl t
  unfold Waits.wakes
  rw [h3 hz]
  simp

/-- **C120 (others).** Of a descriptor that was not waited for, such as that of a socket opened since, the daemon does not believe
that it can be read, if `select` leaves alone what it does not look at. -/
theorem C120_others (nl : Option Nat) (t : List Slot) (ready : Nat → Bool) (fd : Nat) (hw : ¬ Watched nl t fd) :
    (collect nl t).isSet ready (fun d => (collect nl t).fds.contains d) fd = false := by
  have hc : (collect nl t).fds.contains fd = false :=
    Bool.eq_false_iff.2 fun h => hw (((collect_spec nl t).1 fd).1 (List.contains_iff_mem.1 h))
  unfold Waits.isSet
  split
  · rw [hc]; rfl
  · exact hc

/-- **C120 (daemon).** At any moment of a run in which the system has not given out descriptor 0: the daemon wakes up exactly
when netlink has news or a packet has come for one of the interfaces in use, by IPv4 or IPv6, and knows for which.  Partial as C70
is: addresses 0.0.0.0 and `::` are excluded. -/
theorem C120_daemon_partial (ifname : Option Bytes) (e : Env) (l : Option (List Ifa)) (k : Sock) (evs : List Ev)
    (h : ∀ c ∈ (e, l) :: evs.flatMap Ev.calls, c.1.Fresh ∧ Iface.AllProper c.2) (nl : Option Nat) (t : List Slot) (s : Sys)
    (hr : upTo ifname e l k evs {} = .ok (nl, t) s) (h0 : 0 ∉ s.fds) (ready rest : Nat → Bool) :
    ((collect nl t).wakes ready = true ↔ (∃ fd, nl = some fd ∧ ready fd = true) ∨
      ∃ x ∈ t, x.i.unused = false ∧ ∃ fd, (x.sd = some fd ∨ x.sd6 = some fd) ∧ ready fd = true) ∧
    ∀ x ∈ t, x.i.unused = false → ∀ fd, x.sd = some fd ∨ x.sd6 = some fd →
      (collect nl t).isSet ready rest fd = ready fd := by
  obtain ⟨hp, -, -, -, -, hx⟩ := C70_held_partial ifname e l k evs h nl t s hr
  have open' : ∀ fd, Watched nl t fd → fd ≠ 0 := by
    rintro fd hw rfl
    refine h0 (hp.mem_iff.2 ?_)
    rcases hw with rfl | ⟨x, m, -, -, hd⟩
    · simp
    · refine List.mem_append_left _ (List.mem_flatMap.2 ⟨x, m, ?_⟩)
      rcases hd with hd | hd <;> simp [hd]
  have hw : ∀ fd, Watched nl t fd ↔ nl = some fd ∨ ∃ x ∈ t, x.i.unused = false ∧ (x.sd = some fd ∨ x.sd6 = some fd) := by
    intro fd
    unfold Watched
    constructor
    · exact Or.imp id fun ⟨x, m, hu, _, hd⟩ => ⟨x, m, hu, hd⟩
    · exact Or.imp id fun ⟨x, m, hu, hd⟩ => ⟨x, m, hu, (hx x m).1, hd⟩
  have all : ((∃ fd, Watched nl t fd ∧ ready fd = true) ↔ (∃ fd, nl = some fd ∧ ready fd = true) ∨
      ∃ x ∈ t, x.i.unused = false ∧ ∃ fd, (x.sd = some fd ∨ x.sd6 = some fd) ∧ ready fd = true) := by
    constructor
    · rintro ⟨fd, h1, h2⟩
      exact ((hw fd).1 h1).imp (fun h => ⟨fd, h, h2⟩) fun ⟨x, m, hu, hd⟩ => ⟨x, m, hu, fd, hd, h2⟩
    · rintro (⟨fd, h1, h2⟩ | ⟨x, m, hu, fd, hd, h2⟩)
      · exact ⟨fd, (hw fd).2 (.inl h1), h2⟩
      · exact ⟨fd, (hw fd).2 (.inr ⟨x, m, hu, hd⟩), h2⟩
  by_cases hz : OnlyZero nl t
  · have none' : ∀ fd, ¬ Watched nl t fd := fun fd h => open' fd h (hz fd h)
    refine ⟨?_, fun x m hu fd hd => absurd ((hw fd).2 (.inr ⟨x, m, hu, hd⟩)) (none' fd)⟩
    rw [← all, C120_zero nl t hz]
    exact ⟨fun h => (nomatch h), fun ⟨fd, h, _⟩ => absurd h (none' fd)⟩
  · obtain ⟨h1, h2⟩ := C120_wakes_partial nl t ready rest hz
    exact ⟨h1.trans all, fun x m hu fd hd => h2 fd ((hw fd).2 (.inr ⟨x, m, hu, hd⟩))⟩

/-! ### Samples -/

/-- Two interfaces, of which the second has no IPv6, and one that is gone. -/
def sampleSlots : List Slot :=
  [{ i := { name := [0x65] }, sd := some 4, sd6 := some 7, mdns := some 0, mdns6 := some 1 },
    { i := { name := [0x77] }, sd := some 5, mdns := some 2 },
    { i := { name := [0x78], unused := true }, sd := some 9, mdns := some 3 }]

example : collect (some 3) sampleSlots = { fds := [5, 7, 4, 3], nfds := 8 } := by decide +kernel

/-- The hypothesis of `C120_wakes_partial` holds. -/
example : ¬ OnlyZero (some 3) sampleSlots := fun h => by
  have := h 3 (.inl rfl)
  omega

/-- A run that meets the hypotheses of `C120_daemon_partial` (see `eventful_ok`), and what is waited for then. -/
example : (match upTo none fine (some twoList) .bound eventful {} with
    | .ok (nl, t) s => decide (0 ∉ s.fds) && decide (collect nl t = { fds := [3, 6, 5, 7], nfds := 8 })
    | _ => false) = true := by decide +kernel

/-- Started with standard input closed, on a system without netlink and IPv6: the socket of the only interface gets the
number 0, and the daemon does not wake up when a packet comes. -/
theorem C120_zero_counterexample : ∃ t : List Slot, Watched none t 0 ∧ (collect none t).wakes (· == 0) = false :=
  ⟨[{ i := { name := [0x65] }, sd := some 0, mdns := some 0 }], .inr ⟨_, .head _, rfl, rfl, .inl rfl⟩, by decide +kernel⟩

end Mdns.Proc
