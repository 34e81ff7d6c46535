import Verif.Spec.Daemon

/-!
# What a program learns from its answer callback
-/

namespace Mdns

/-- A program keeps the set of records of a name and type: a record its callback `cb` is told
with a lifetime is added, one it is told with lifetime 0 is taken out, and when the query ends
the program forgets them all. -/
def clientStep (host : Bytes) (type : Nat) (cb : Option Nat) (K : Answer → Prop) : Event → Answer → Prop
  | .answer _ cb' a, r =>
    if cb = some cb' ∧ a.name = host ∧ a.type = type then if a.ttl = 0 then K r ∧ ¬ SameRec a r else K r ∨ SameRec a r
    else K r
  | .unregistered h t, r => if h = host ∧ t = type then False else K r
  | _, r => K r

/-- The records such a program has after the events `log` of a history that began with `pre`. -/
def clientGo (host : Bytes) (type : Nat) : List Event → (Answer → Prop) → List Event → Answer → Prop
  | _, K, [] => K
  | pre, K, e :: log => clientGo host type (pre ++ [e]) (clientStep host type (callback pre host type) K e) log

/-- The records such a program has after a history. -/
def Client (host : Bytes) (type : Nat) (log : List Event) : Answer → Prop :=
  clientGo host type [] (fun _ => False) log

/-- No query of any type for the name was ever made. -/
def NoAny (host : Bytes) (log : List Event) : Prop := ∀ cb, Event.registered host 255 cb ∉ log

end Mdns
