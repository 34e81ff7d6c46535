import Verif.Model.DaemonTypes

/-!
# What the application sees of cache and queries

Independent of how the daemon works: when two records are the same, and which
callback is registered for a name and type after a history of events.
-/

namespace Mdns

/-- The data of two records of the same type is equal. -/
def sameData (a b : Answer) : Prop :=
  match a.type with
  | 1 => a.ip = b.ip
  | 28 => a.ip6 = b.ip6
  | 2 | 5 | 12 => a.rdname = b.rdname
  | 33 => a.rdname = b.rdname ∧ a.priority = b.priority ∧ a.weight = b.weight ∧ a.port = b.port
  | _ => a.rdata.getD [] = b.rdata.getD []

/-- Same name, type and data (the lifetime does not count). -/
def SameRec (a b : Answer) : Prop := a.name = b.name ∧ a.type = b.type ∧ sameData a b

/-- A query for `type` (255 is ANY) asks for this record type. -/
def typeFits (type : Nat) (a : Answer) : Prop := type = a.type ∨ type = 255

/-- The callback registered for a name and type after a history. -/
def callback (t : List Event) (host : Bytes) (type : Nat) : Option Nat :=
  t.foldl (fun s e =>
    match e with
    | .registered h ty cb => if h = host ∧ ty = type then some cb else s
    | .unregistered h ty => if h = host ∧ ty = type then none else s
    | _ => s) none

/-- Every answer callback in a history goes to a callback that is registered, at that
moment, for the record's name and for its type or ANY. -/
def LogOk (log : List Event) : Prop :=
  ∀ t q cb rr s, log = t ++ .answer q cb rr :: s →
    ∃ type, typeFits type rr ∧ callback t rr.name type = some cb

/-- The registrations a callback makes, as events. -/
def regEvents (reg : List (Bytes × Nat × Nat)) : List Event := reg.map fun e => .registered e.1 e.2.1 e.2.2

/-- After every callback that returns -1 the query it was called for ends at once: nothing
but the registrations made by the callback itself comes between. Callbacks that themselves
register a query of type ANY for the record's name are left out. -/
def StopsOk (env : Env) (log : List Event) : Prop :=
  ∀ pre q cb rr post, log = pre ++ .answer q cb rr :: post →
    (env.answer (pre ++ [.answer q cb rr])).stop = true →
    (∀ cb', (rr.name, 255, cb') ∉ (env.answer (pre ++ [.answer q cb rr])).reg) →
    ∃ t post', typeFits t rr ∧ callback pre rr.name t = some cb ∧
      post = regEvents (env.answer (pre ++ [.answer q cb rr])).reg ++ .unregistered rr.name t :: post'

/-- The records passed to answer callbacks. -/
def answersOf (evs : List Event) : List Answer :=
  evs.filterMap fun e => match e with | .answer _ _ rr => some rr | _ => none

theorem answersOf_append (a b : List Event) : answersOf (a ++ b) = answersOf a ++ answersOf b := by
  simp [answersOf]

/-- What a parsed record looks like: the decoded data fits the type. -/
structure Resource.WF (r : Resource) : Prop where
  a : r.type = 1 → ∃ ip, r.known = .a ip
  aaaa : r.type = 28 → ∃ ip, r.known = .aaaa ip
  name : r.type = 2 ∨ r.type = 5 ∨ r.type = 12 → ∃ n, r.known = .name n
  srv : r.type = 33 → ∃ p w o n, r.known = .srv p w o n
  other : r.type ≠ 1 → r.type ≠ 28 → r.type ≠ 2 → r.type ≠ 5 → r.type ≠ 12 → r.type ≠ 33 → r.known = .none

/-- The cached record carries what the received record `r` says, apart from the lifetime. -/
def carries (r : Resource) (b : Answer) : Bool :=
  b.name == r.name && b.type == r.type &&
    match r.known with
    | .a ip => b.ip == toVec 4 ip
    | .aaaa ip => b.ip6 == toVec 16 ip
    | .name n => b.rdname == some n
    | .srv p w o n => b.rdname == some n && b.priority == p && b.weight == w && b.port == o
    | .none => b.rdata.getD [] == r.rdata

end Mdns
