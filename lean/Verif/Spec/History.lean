import Verif.Lemmas.Safety
import Verif.Spec.Packet

/-!
# Histories

A history is the list of all calls made on a daemon so far, with what they returned. The
packets are in it: `mdnsd_out` returns them. Which record an entry of a packet comes from is
told by the tags of the packet, see `Props/Packets.lean`.
-/

namespace Mdns

/-- A call and its result. -/
abbrev Call := Op × OpOut

/-- The daemon `d` is the result of the calls `h`, all of them safe. -/
inductive Hist (env : Env) : List Call → D Ptrs → Prop
  | new (cls frame : Nat) (now : TV) : Hist env [] (newD cls frame now)
  | call {h : List Call} {d d' : D Ptrs} {o : Op} {a : OpOut} (n : Hist env h d) (hs : OpSafe env d.c d.q.walk o)
      (e : Mdns.step env o d = .ok (a, d')) : Hist env (h ++ [(o, a)]) d'

/-- The records put in the packet a call makes, with the sections. -/
def OpOut.tags : OpOut → List (Section × Nat)
  | .sent _ m _ => m.tags
  | _ => []

/-- The call makes a packet for everyone: one to port 5353. -/
def OpOut.multi : OpOut → Bool
  | .sent _ _ to => to.port == 5353
  | _ => false

/-- The call makes a packet for everyone that has the record in the given section. -/
def Call.shows (s : Section) (r : Nat) (k : Call) : Bool := k.2.multi && k.2.tags.contains (s, r)

/-- How many packets for everyone have the record in the section. -/
def shown (s : Section) (r : Nat) (h : List Call) : Nat := (h.filter (Call.shows s r)).length

/-- The record was made by `mdnsd_unique`. -/
def MadeUnique (r : Nat) (h : List Call) : Prop := ∃ n t ttl cf, ((Op.unique n t ttl cf, OpOut.handle r) : Call) ∈ h

/-- The call sets the data of the record. -/
def Op.sets (r : Nat) : Op → Bool
  | .setRaw s _ => s == r
  | .setHost s _ => s == r
  | .setIp s _ => s == r
  | .setIpv6 s _ => s == r
  | .setSrv s _ _ _ _ => s == r
  | _ => false

/-- The calls that neither queue, change, probe nor withdraw records, except that
`mdnsd_sleep` may queue records that are about to expire. -/
def Op.calm : Op → Bool
  | .send _ => true
  | .sleep _ => true
  | .query _ _ _ => true
  | .shared _ _ _ => true
  | .setFamily _ => true
  | .receiveCallback _ => true
  | .stepEnd => true
  | _ => false

/-- The call was made at least two seconds before the given time, and for `mdnsd_sleep` also the
time it returned had passed by then. The microseconds are less than a second. -/
def Call.before (T : TV) : Call → Prop
  | (.recv now _ _, _) => now.usec < 1000000 ∧ 2000000 ≤ tvdiff now T
  | (.send now, _) => now.usec < 1000000 ∧ 2000000 ≤ tvdiff now T
  | (.sleep now, .time t) => now.usec < 1000000 ∧ 2000000 + (t.sec : Int) * 1000000 ≤ tvdiff now T
  | _ => True

/-- The calls are all `mdnsd_out`, with at least two seconds from one to the next. -/
def Paced (h : List Call) : Prop :=
  (∀ k ∈ h, ∃ t, k.1 = .send t) ∧
    h.Pairwise fun k k' => ∀ t t', k.1 = .send t → k'.1 = .send t' → 2000000 ≤ tvdiff t t'

/-- Packets are made at least two seconds apart, beginning at the given time. -/
def PacedFrom (T : TV) (h : List Call) : Prop := Paced h ∧ ∀ k ∈ h, ∀ t, k.1 = .send t → 0 ≤ tvdiff T t

/-- The calls that are not about the record: everything but receiving, sleeping, shutting down,
clearing, changing addresses, and setting or withdrawing the record itself. -/
def Op.leaves (r : Nat) : Op → Bool
  | .send _ => true
  | .setFamily _ => true
  | .receiveCallback _ => true
  | .query _ _ _ => true
  | .shared _ _ _ => true
  | .unique _ _ _ _ => true
  | .stepEnd => true
  | .done s => s != r
  | .setRaw s _ => s != r
  | .setHost s _ => s != r
  | .setIp s _ => s != r
  | .setIpv6 s _ => s != r
  | .setSrv s _ _ _ _ => s != r
  | _ => false

end Mdns
