import Verif.Props.Rivals

/-!
# C61, C67, C68: steps that fail, and questions that are not answered
-/

namespace Mdns
namespace Sample

/-- The packet sent last. -/
def lastSent (h : List Call) : Out := match h.getLast? with
  | some (_, .sent _ m _) => m
  | _ => {}

/-- B asks for `b.`, `b.a.c.` and `a.c.`. -/
def mixedOps : List Op := [.query (nm 98) 1 (some 1), .query [98, 46, 97, 46, 99, 46] 1 (some 1), .query [97, 46, 99, 46] 1 (some 1), .send (at_ 110)]

/-- B asks for services and for `a.`. -/
def bothOps : List Op := [.query discoName 12 (some 1), .query (nm 97) 1 (some 1), .send (at_ 110)]

/-- A has announced `b.`. -/
def holdsB : List Op := [.shared (nm 98) 1 120, .setIp 0 ipA] ++ every 101 4

/-- A has announced an address and a type of service. -/
def holdsBoth : List Op := [.shared (nm 97) 1 120, .setIp 0 ipA, .shared discoName 12 120, .setHost 1 (nm 99)] ++ every 101 6

/-- A record is in no queue. -/
def idleQ (d : D Ptrs) (r : Nat) : Bool :=
  !(d.q.walk .probing).contains r && !(d.q.walk .now).contains r && !(d.q.walk .pause).contains r && !(d.q.walk .publish).contains r

theorem idleQ_of {d : D Ptrs} {r : Nat} (h : idleQ d r = true) (w : W) : r ∉ d.q.walk w := by
  unfold idleQ at h
  simp only [Bool.and_eq_true, Bool.not_eq_true', List.contains_eq_mem, decide_eq_false_iff_not] at h
  cases w
  · exact h.1.1.1
  · exact h.1.1.2
  · exact h.1.2
  · exact h.2

theorem sent_last_of {ops : List Op} {now : TV} {b : Bool} (h : (match (trace quiet ops fresh).1.getLast? with
      | some (.send t, .sent _ _ _) => decide (t = now)
      | _ => false) = b) (hb : b = true) :
    ∃ ret to, (Op.send now, OpOut.sent ret (lastSent (trace quiet ops fresh).1) to) ∈ (trace quiet ops fresh).1 := by
  subst hb
  generalize (trace quiet ops fresh).1 = l at h
  split at h
  · rename_i t ret m to e
    have := of_decide_eq_true h
    subst this
    refine ⟨ret, to, ?_⟩
    unfold lastSent
    rw [e]
    exact List.mem_of_getLast? e
  · cases h

/-- A step that receives the packet, and sends a second later. -/
def bothStep (m : Out) : StepIo := { datagrams := [⟨at_ 110, messagePacket m.builder, srcB⟩], clock := fun _ => at_ 111, sleepAt := at_ 111 }

/-- What the packet means to another host. -/
def meantB (m : Out) : Msg := match Datagram.meaning ⟨at_ 110, messagePacket m.builder, srcB⟩ with
  | .ok msg => msg
  | _ => { id := 0, header := {}, qd := [], an := [], ns := [], ar := [] }

end Sample

open Sample in
/-- C67: without a common top label a record is not found.  B asks for `b.`, `b.a.c.` and `a.c.` in one packet, A has announced `b.`; the
packet asks for `b.a.c.` twice instead (C03), and A has nothing to answer. -/
theorem C67_labels_counterexample : ∃ (hB hA : List Call) (dB dA d : D Ptrs) (ret : Nat) (m : Out) (to src : Addr) (now : TV) (msg : Msg) (x : Rec),
    Hist quiet hB dB ∧ (Op.send now, OpOut.sent ret m to) ∈ hB ∧ m.asks (nm 98) 1 = true ∧ Datagram.meaning ⟨now, messagePacket m.builder, src⟩ = .ok msg ∧
    Hist quiet hA dA ∧ dA.c.recs 0 = some x ∧ x.rr.name = nm 98 ∧ x.rr.type = 1 ∧ (∀ w, 0 ∉ dA.q.walk w) ∧
    Mdns.step quiet (.recv now msg src) dA = .ok (.unit, d) ∧ (∀ w, 0 ∉ d.q.walk w) ∧ d.c.uanswers = [] := by
  have hB := hist_of (ops := mixedOps) (by decide +kernel)
  have hA := hist_of (ops := holdsB) (by decide +kernel)
  obtain ⟨ret, to, ms⟩ := sent_last_of (ops := mixedOps) (now := at_ 110) (b := true) (by decide +kernel) rfl
  have hs : OpSafe quiet (trace quiet holdsB fresh).2.c (trace quiet holdsB fresh).2.q.walk
    (.recv (at_ 110) (meantB (lastSent (trace quiet mixedOps fresh).1)) srcB) := opSafeB_sound quiet_keeps (by decide +kernel)
  obtain ⟨a, e⟩ := step_of hA.reach hs
  have c : (lastSent (trace quiet mixedOps fresh).1).asks (nm 98) 1 = true ∧
      Datagram.meaning ⟨at_ 110, messagePacket (lastSent (trace quiet mixedOps fresh).1).builder, srcB⟩ =
        .ok (meantB (lastSent (trace quiet mixedOps fresh).1)) ∧
      ((trace quiet holdsB fresh).2.c.recs 0).any (fun x => decide (x.rr.name = nm 98) && decide (x.rr.type = 1)) = true ∧
      idleQ (trace quiet holdsB fresh).2 0 = true ∧
      idleQ (trace quiet [.recv (at_ 110) (meantB (lastSent (trace quiet mixedOps fresh).1)) srcB] (trace quiet holdsB fresh).2).2 0 = true ∧
      (trace quiet [.recv (at_ 110) (meantB (lastSent (trace quiet mixedOps fresh).1)) srcB] (trace quiet holdsB fresh).2).2.c.uanswers = [] := by
    decide +kernel
  generalize (trace quiet [.recv (at_ 110) (meantB (lastSent (trace quiet mixedOps fresh).1)) srcB] (trace quiet holdsB fresh).2).2 = d at e c
  generalize (trace quiet holdsB fresh).2 = dA, (trace quiet holdsB fresh).1 = h at hA hs e c
  generalize lastSent (trace quiet mixedOps fresh).1 = m at ms hs e c
  obtain ⟨c1, c2, c3, c4, c5, c6⟩ := c
  cases hx : dA.c.recs 0 with
  | none => rw [hx] at c3; cases c3
  | some x =>
    rw [hx] at c3
    simp only [Option.any_some, Bool.and_eq_true, decide_eq_true_eq] at c3
    have : a = .unit := by
      have hd := hA.reach.did hs e
      generalize d.c = c', d.lists = l' at hd
      cases hd
      rfl
    subst this
    exact ⟨_, h, _, dA, d, ret, m, to, srcB, at_ 110, _, x, hB, ms, c1, c2, hA, hx, c3.1, c3.2, idleQ_of c4, e, idleQ_of c5, c6⟩

open Sample in
/-- C68: a packet that asks for the enumeration of services and for an address is not answered with the address. -/
theorem C68_enumeration_counterexample : ∃ (hB hA : List Call) (dB dA d : D Ptrs) (ret : Nat) (m : Out) (to src : Addr) (now : TV) (io : StepIo) (out : StepOut) (x : Rec),
    Hist quiet hB dB ∧ (Op.send now, OpOut.sent ret m to) ∈ hB ∧ m.asks (nm 97) 1 = true ∧
    Hist quiet hA dA ∧ dA.c.recs 0 = some x ∧ x.rr.name = nm 97 ∧ x.rr.type = 1 ∧ (∀ w, 0 ∉ dA.q.walk w) ∧
    io.datagrams = [⟨now, messagePacket m.builder, src⟩] ∧ io.input = true ∧ io.output = true ∧
    (∃ fuel, mdnsdStep quiet io fuel dA = .ok (out, d)) ∧ out.rc = 0 ∧ (∀ p ∈ out.packets, (Section.an, 0) ∉ p.1.tags) ∧ (∀ w, 0 ∉ d.q.walk w) ∧ d.c.uanswers = [] := by
  have hB := hist_of (ops := bothOps) (by decide +kernel)
  have hA := hist_of (ops := holdsBoth) (by decide +kernel)
  obtain ⟨ret, to, ms⟩ := sent_last_of (ops := bothOps) (now := at_ 110) (b := true) (by decide +kernel) rfl
  have c : (lastSent (trace quiet bothOps fresh).1).asks (nm 97) 1 = true ∧
      ((trace quiet holdsBoth fresh).2.c.recs 0).any (fun x => decide (x.rr.name = nm 97) && decide (x.rr.type = 1)) = true ∧
      idleQ (trace quiet holdsBoth fresh).2 0 = true ∧
      (match mdnsdStep quiet (bothStep (lastSent (trace quiet bothOps fresh).1)) 5 (trace quiet holdsBoth fresh).2 with
       | .ok (out, d) => out.rc == 0 && out.packets.all (fun p => !p.1.tags.contains (.an, 0)) && idleQ d 0 && d.c.uanswers.isEmpty
       | _ => false) = true := by
    decide +kernel
  generalize (trace quiet holdsBoth fresh).2 = dA, (trace quiet holdsBoth fresh).1 = h at hA c
  generalize lastSent (trace quiet bothOps fresh).1 = m at ms c
  obtain ⟨c1, c3, c4, c5⟩ := c
  cases hx : dA.c.recs 0 with
  | none => rw [hx] at c3; cases c3
  | some x =>
    rw [hx] at c3
    simp only [Option.any_some, Bool.and_eq_true, decide_eq_true_eq] at c3
    split at c5
    · rename_i out d e
      simp only [Bool.and_eq_true, beq_iff_eq, List.all_eq_true, Bool.not_eq_true', List.contains_eq_mem, decide_eq_false_iff_not, List.isEmpty_iff] at c5
      exact ⟨_, h, _, dA, d, ret, m, to, srcB, at_ 110, bothStep m, out, x, hB, ms, c1, hA, hx, c3.1, c3.2, idleQ_of c4, rfl, rfl, rfl, ⟨5, e⟩,
        c5.1.1.1, c5.1.1.2, idleQ_of c5.1.2, c5.2⟩
    · cases c5

theorem processOut_ub {env : Env} {clock : Nat → TV} {accepted : Nat → Bool} {d : D Ptrs} (h : outMsg env (clock 0) d = .ub) (fuel : Nat) :
    processOut env clock accepted (fuel + 1) 0 d = .ub := by
  unfold processOut
  exact M.bind_ub h

open Sample in
/-- C61: with a callback that ends its query when an entry expires, a step uses memory that was freed (C28), however long it may take. -/
theorem C61_expiry_counterexample : ∃ (ops : List Op) (d : D Ptrs) (a : List OpOut) (io : StepIo), run stopOnExpiry ops fresh = .ok (a, d) ∧
    io.datagrams = [] ∧ ∀ fuel, mdnsdStep stopOnExpiry io (fuel + 1) d = .ub := by
  have c : outcome (run stopOnExpiry [.query (nm 97) 12 (some 1), .recv (at_ 101) (ptrMsg 4) other, .send (at_ 104), .send (at_ 105), .send (at_ 107)] fresh) = 0 ∧
      (match run stopOnExpiry [.query (nm 97) 12 (some 1), .recv (at_ 101) (ptrMsg 4) other, .send (at_ 104), .send (at_ 105), .send (at_ 107)] fresh with
       | .ok (_, d) => outcome (outMsg stopOnExpiry (at_ 111) d) == 1
       | _ => false) = true := by decide +kernel
  cases h : run stopOnExpiry [.query (nm 97) 12 (some 1), .recv (at_ 101) (ptrMsg 4) other, .send (at_ 104), .send (at_ 105), .send (at_ 107)] fresh with
  | ok p =>
    rw [h] at c
    obtain ⟨a, d⟩ := p
    have e : outMsg stopOnExpiry (at_ 111) d = .ub := outcome_ub (beq_iff_eq.mp c.2)
    refine ⟨_, d, a, { clock := fun _ => at_ 111, sleepAt := at_ 111, input := false }, h, rfl, fun fuel => ?_⟩
    have e' := processOut_ub (env := stopOnExpiry) (clock := fun _ => at_ 111) (accepted := fun _ => true) (d := d) e fuel
    have i : stepIn stopOnExpiry { clock := fun _ => at_ 111, sleepAt := at_ 111, input := false } d = .ok (0, d) := rfl
    exact (M.bind_ok i).trans (M.bind_ub e')
  | _ => rw [h] at c; cases c.1

end Mdns
