import Verif.Props.Lasting
import Verif.Props.Prompt

/-!
# C36, C92: two daemons with one name
-/

namespace Mdns

/-! ### Specification -/

/-- Every packet sent in the history `h` is received in `h'`, at the same time, from `src`. -/
def Overhears (src : Addr) (h h' : List Call) : Prop :=
  ∀ t ret m to, (Op.send t, OpOut.sent ret m to) ∈ h → ret ≠ 0 →
    ∃ msg, Datagram.meaning ⟨t, messagePacket m.builder, src⟩ = .ok msg ∧ (Op.recv t msg src, OpOut.unit) ∈ h'

/-- Some packet of the history has the record among its answers. -/
def Multicasts (r : Nat) (h : List Call) : Prop :=
  ∃ t ret m to, (Op.send t, OpOut.sent ret m to) ∈ h ∧ (Section.an, r) ∈ m.tags ∧ to.port = 5353

def Overhears.check (src : Addr) (h h' : List Call) : Bool :=
  h.all fun k => match k with
    | (.send t, .sent ret m _) => ret == 0 ||
        (match Datagram.meaning ⟨t, messagePacket m.builder, src⟩ with
         | .ok msg => h'.any fun k' => match k' with
            | (.recv t' msg' src', .unit) => decide (t' = t) && decide (msg' = msg) && decide (src' = src)
            | _ => false
         | _ => false)
    | _ => true

theorem Overhears.of {src : Addr} {h h' : List Call} (e : Overhears.check src h h' = true) : Overhears src h h' := by
  intro t ret m to mk hr
  have := List.all_eq_true.mp e _ mk
  dsimp only at this
  rw [Bool.or_eq_true] at this
  rcases this with h0 | h0
  · exact absurd (beq_iff_eq.mp h0) hr
  · split at h0
    · rename_i msg hm
      obtain ⟨k', mk', h2⟩ := List.any_eq_true.mp h0
      split at h2
      · rename_i t' msg' src'
        simp only [Bool.and_eq_true, decide_eq_true_eq] at h2
        obtain ⟨⟨rfl, rfl⟩, rfl⟩ := h2
        exact ⟨_, hm, mk'⟩
      · cases h2
    · cases h0

def Multicasts.check (r : Nat) (h : List Call) : Bool :=
  h.any fun k => match k with
    | (.send _, .sent _ m to) => m.tags.contains (.an, r) && to.port == 5353
    | _ => false

theorem Multicasts.of {r : Nat} {h : List Call} (e : Multicasts.check r h = true) : Multicasts r h := by
  obtain ⟨k, mk, h2⟩ := List.any_eq_true.mp e
  split at h2
  · rw [Bool.and_eq_true] at h2
    exact ⟨_, _, _, _, mk, List.contains_iff_mem.mp h2.1, beq_iff_eq.mp h2.2⟩
  · cases h2

namespace Sample

/-- What the packets sent in a history mean. -/
def spoken (src : Addr) (h : List Call) : List Msg :=
  h.filterMap fun k => match k with
    | (.send t, .sent ret m _) => if ret = 0 then none else
        match Datagram.meaning ⟨t, messagePacket m.builder, src⟩ with
        | .ok msg => some msg
        | _ => none
    | _ => none

/-- The calls of a second: everything heard is taken in, then up to two packets are made. -/
def second (t : Nat) (src : Addr) (inbox : List Msg) : List Op :=
  inbox.map (fun m => .recv (at_ t) m src) ++ [.send (at_ t), .send (at_ t)]

def srcA : Addr := ⟨.v4 #v[10, 0, 0, 1], 5353⟩
def srcB : Addr := ⟨.v4 #v[10, 0, 0, 2], 5353⟩

/-- The calls of both hosts in the next `n` seconds: B, then A, then B again. -/
def talk : Nat → Nat → D Ptrs → D Ptrs → List Op × List Op
  | 0, _, _, _ => ([], [])
  | n + 1, t, a, b =>
    let ob := second t srcA []
    let (hb, b1) := trace quiet ob b
    let oa := second t srcB (spoken srcB hb)
    let (ha, a1) := trace quiet oa a
    let ob' := (spoken srcA ha).map fun m => Op.recv (at_ t) m srcA
    let b2 := (trace quiet ob' b1).2
    let (ra, rb) := talk n (t + 1) a1 b2
    (oa ++ ra, ob ++ ob' ++ rb)

def opsA : List Op := [.unique (nm 97) 1 120 (some 1), .setIp 0 #v[10, 0, 0, 1]]
def opsB : List Op := [.unique (nm 97) 1 120 (some 1), .setIp 0 #v[10, 0, 0, 2]]

/-- A publishes, and B listens; when A is done, B publishes the same name. -/
def plan : List Op × List Op :=
  let a0 := (trace quiet opsA fresh).2
  let p := talk 8 101 a0 fresh
  let a1 := (trace quiet p.1 a0).2
  let b1 := (trace quiet (p.2 ++ opsB) fresh).2
  let q := talk 8 110 a1 b1
  (opsA ++ p.1 ++ q.1, p.2 ++ opsB ++ q.2)

def histA : List Call := (trace quiet plan.1 fresh).1
def histB : List Call := (trace quiet plan.2 fresh).1
def lastA : D Ptrs := (trace quiet plan.1 fresh).2
def lastB : D Ptrs := (trace quiet plan.2 fresh).2

end Sample

open Sample in
/-- C36: a name in use is taken, and nobody is told.  Two hosts hear every packet of each other.  One has published a unique
record and announced it, and the other one knows it; then the other one publishes its own unique record of the same name and type
with another address, probes for it, is answered, and announces it.  No conflict is reported on either side, both go on with
their records, and each one has the record of the other one in its cache. -/
theorem C36_taken_counterexample : ∃ (a b : Addr) (hA hB : List Call) (dA dB : D Ptrs) (x y : Rec), Hist quiet hA dA ∧ Hist quiet hB dB ∧
    Overhears a hA hB ∧ Overhears b hB hA ∧ Multicasts 0 hA ∧ Multicasts 0 hB ∧
    dA.c.recs 0 = some x ∧ dB.c.recs 0 = some y ∧ x.unique ≠ 0 ∧ y.unique ≠ 0 ∧ x.rr.name = y.rr.name ∧ x.rr.type = 1 ∧ y.rr.type = 1 ∧
    x.rr.ip ≠ y.rr.ip ∧ conflictsOf 0 dA.c.log = 0 ∧ conflictsOf 0 dB.c.log = 0 ∧
    (dA.c.listed y.rr.name 1).map (·.ip) = [y.rr.ip] ∧ (dB.c.listed x.rr.name 1).map (·.ip) = [x.rr.ip] := by
  have hA : Hist quiet histA lastA := hist_of (by decide +kernel)
  have hB : Hist quiet histB lastB := hist_of (by decide +kernel)
  have c : Overhears.check srcA histA histB = true ∧ Overhears.check srcB histB histA = true ∧ Multicasts.check 0 histA = true ∧
    Multicasts.check 0 histB = true ∧ conflictsOf 0 lastA.c.log = 0 ∧ conflictsOf 0 lastB.c.log = 0 ∧
    (match lastA.c.recs 0, lastB.c.recs 0 with
     | some x, some y => decide (x.unique ≠ 0) && decide (y.unique ≠ 0) && decide (x.rr.name = y.rr.name) && decide (x.rr.type = 1) &&
        decide (y.rr.type = 1) && decide (x.rr.ip ≠ y.rr.ip) && decide ((lastA.c.listed y.rr.name 1).map (·.ip) = [y.rr.ip]) &&
        decide ((lastB.c.listed x.rr.name 1).map (·.ip) = [x.rr.ip])
     | _, _ => false) = true := by decide +kernel
  generalize histA = a, histB = b, lastA = da, lastB = db at hA hB c
  obtain ⟨c1, c2, c3, c4, c5, c6, c7⟩ := c
  split at c7
  · rename_i x y ex ey
    simp only [Bool.and_eq_true, decide_eq_true_eq] at c7
    obtain ⟨⟨⟨⟨⟨⟨⟨u1, u2⟩, u3⟩, u4⟩, u5⟩, u6⟩, u7⟩, u8⟩ := c7
    exact ⟨srcA, srcB, a, b, da, db, x, y, hA, hB, .of c1, .of c2, .of c3, .of c4, ex, ey, u1, u2, u3, u4, u5, u6, c5, c6, u7, u8⟩
  · cases c7

open Sample in
/-- C36: a conflict is reported more than once.  The record that is withdrawn is still there until its goodbye is sent, and
the second packet with its data finds it again (`libmdnsd/mdnsd.c:1224`). -/
theorem C36_twice_counterexample : ∃ h d, Hist quiet h d ∧ conflictsOf 0 d.c.log = 2 :=
  ⟨_, _, hist_of (ops := opsA ++ (talk 8 101 (trace quiet opsA fresh).2 fresh).1 ++ [.recv (at_ 110) { knows 1 [10, 0, 0, 1] with header := { qr := true } } other,
    .recv (at_ 110) { knows 1 [10, 0, 0, 1] with header := { qr := true } } other]) (by decide +kernel), by decide +kernel⟩

/-! ### Concrete cases -/

open Sample in
/-- C92: the first host keeps its record while the other one takes its name. -/
example : ∃ x, lastA.c.recs 0 = some x ∧ x.rr.ip = #v[10, 0, 0, 1] := by
  have hr := (hist_of (ops := opsA) (by decide +kernel)).reach
  have n := calls_of (ops := plan.1.drop 2) (d := (trace quiet opsA fresh).2) (by decide +kernel)
  have c : ((trace quiet opsA fresh).2.c.recs 0).any (fun x => x.rr.ttl ≠ 0 && x.rr.ip = #v[10, 0, 0, 1] &&
      (trace quiet (plan.1.drop 2) (trace quiet opsA fresh).2).1.all fun k => !k.1.disturbs 0 x.rr) = true := by decide +kernel
  have c2 : conflictsOf 0 (trace quiet (plan.1.drop 2) (trace quiet opsA fresh).2).2.c.log =
      conflictsOf 0 (trace quiet opsA fresh).2.c.log := by decide +kernel
  have e : lastA.c.recs 0 = (trace quiet (plan.1.drop 2) (trace quiet opsA fresh).2).2.c.recs 0 := by decide +kernel
  rw [e]
  clear e
  generalize (trace quiet (plan.1.drop 2) (trace quiet opsA fresh).2).1 = h, (trace quiet (plan.1.drop 2) (trace quiet opsA fresh).2).2 = d',
    (trace quiet opsA fresh).2 = d at hr n c c2
  cases hx : d.c.recs 0 with
  | none => rw [hx] at c; cases c
  | some x =>
    rw [hx] at c
    simp only [Option.any_some, Bool.and_eq_true, decide_eq_true_eq, List.all_eq_true, Bool.not_eq_true'] at c
    obtain ⟨y, hy, e⟩ := C92_lasts hr n hx c.1.1 (fun k m => c.2 k m) c2
    exact ⟨y, hy, by rw [e]; exact c.1.2⟩

open Sample in
/-- C92: a conflict is reported for a response with the data of the record. -/
example : ∃ d d' m a, Reach quiet d ∧ Mdns.step quiet (.recv (at_ 110) m other) d = .ok (a, d') ∧
    conflictsOf 0 d.c.log < conflictsOf 0 d'.c.log := by
  have hr := (hist_of (ops := opsA) (by decide +kernel)).reach
  obtain ⟨a, e⟩ := step_of hr (o := .recv (at_ 110) { knows 1 [10, 0, 0, 1] with header := { qr := true } } other)
    (opSafeB_sound quiet_keeps (by decide +kernel))
  exact ⟨_, _, _, a, hr, e, by decide +kernel⟩

end Mdns
