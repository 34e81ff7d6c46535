import Verif.Spec.Daemon

/-!
# What receiving a packet is about
-/

namespace Mdns

/-- How often a conflict of a record was reported. -/
def conflictsOf (r : Nat) (evs : List Event) : Nat :=
  evs.countP fun e => match e with
    | .conflict s _ _ => s == r
    | _ => false

/-- The question is about the record: the class the daemon uses, the name of the record, and its
type or ANY. -/
def Question.about (cls : Nat) (q : Question) (a : Answer) : Prop := q.cls = cls ∧ a.name = q.name ∧ typeFits q.type a

end Mdns
