import Verif.Spec.History

/-!
# Asking

Which packets ask for a name and type, and when.
-/

namespace Mdns

/-- The packet asks for the name and type: it is a query with that question, and not a probe.
(Probes have the records that are probed in the authority section.) -/
def Out.asks (m : Out) (host : Bytes) (type : Nat) : Bool :=
  !m.qr && (entries m.ops).all (fun p => p.sec != .ns) &&
    (questions m.ops).any fun q => decide (q.1 = host ∧ q.2.1 = type)

/-- The second at which a call asks for the name and type, if it does. -/
def Call.askTime (host : Bytes) (type : Nat) : Call → Option Nat
  | (.send now, .sent _ m _) => if m.asks host type then some now.sec else none
  | _ => none

/-- The seconds at which a name and type is asked for. -/
def askTimes (host : Bytes) (type : Nat) (h : List Call) : List Nat := h.filterMap (Call.askTime host type)

/-- The time a call is given. -/
def Op.clock : Op → Option TV
  | .recv now _ _ => some now
  | .send now => some now
  | .sleep now => some now
  | _ => none

/-- The answers a call receives. -/
def Op.hears : Op → List Resource
  | .recv _ m _ => m.an
  | _ => []

/-- No answer for the name and type is received. -/
def Unanswered (host : Bytes) (type : Nat) (h : List Call) : Prop :=
  ∀ k ∈ h, ∀ a ∈ k.1.hears, ¬ (a.name = host ∧ (type = a.type ∨ type = 255))

/-- Calls after each other during which the clock, in seconds, is never set back: `T` is the
latest time before and `T'` the latest time after them. -/
inductive Later (env : Env) (d : D Ptrs) (T : Nat) : List Call → D Ptrs → Nat → Prop
  | nil : Later env d T [] d T
  | snoc {h : List Call} {d1 d' : D Ptrs} {o : Op} {a : OpOut} {T1 T' : Nat} (n : Later env d T h d1 T1)
      (hs : OpSafe env d1.c d1.q.walk o) (e : Mdns.step env o d1 = .ok (a, d'))
      (hT : T' = match o.clock with | some t => t.sec | none => T1) (hle : T1 ≤ T') : Later env d T (h ++ [(o, a)]) d' T'

/-- The daemon `d` is the result of the calls `h`; the clock was never zero and never set back, and
last showed `T` seconds. -/
def Timed (env : Env) (h : List Call) (d : D Ptrs) (T : Nat) : Prop :=
  ∃ cls frame now, 0 < now.sec ∧ Later env (newD cls frame now) now.sec h d T

end Mdns
