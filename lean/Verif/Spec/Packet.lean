import Verif.Model.DaemonTypes

/-!
# What a packet holds

The entries and questions of an outgoing message, read off the calls that build it.
-/

namespace Mdns

/-- An entry of a packet: section, name, type, class, lifetime and the calls that write its
data. -/
structure PEntry where
  sec : Section
  name : Bytes
  type : Nat
  cls : Nat
  ttl : Nat
  data : List MOp
deriving DecidableEq, Repr

/-- A call that writes data of the entry before it. -/
def MOp.isData : MOp → Bool
  | .b (.qd _ _ _) => false
  | .b (.rr _ _ _ _ _) => false
  | _ => true

/-- The entries a list of calls makes. -/
def entries : List MOp → List PEntry
  | [] => []
  | .b (.rr s n t c ttl) :: rest => ⟨s, n, t, c, ttl, rest.takeWhile MOp.isData⟩ :: entries rest
  | _ :: rest => entries rest

/-- The questions a list of calls makes. -/
def questions : List MOp → List (Bytes × Nat × Nat)
  | [] => []
  | .b (.qd n t c) :: rest => (n, t, c) :: questions rest
  | _ :: rest => questions rest

end Mdns
