import Verif.Model.Basic

/-!
# Domain names on the wire, from RFC 1035

Independent of the code: 3.1 (labels), 4.1.4 (compression).
-/

namespace Mdns.Spec

/-- `NameAt p o ls e`: at offset `o` of packet `p` there is a name whose labels
are `ls`; the field ends before offset `e`.  A pointer refers to a prior
occurrence, i.e. to a smaller offset. -/
inductive NameAt (p : Bytes) : Nat → List Bytes → Nat → Prop where
  | root (o : Nat) : p[o]? = some 0 → NameAt p o [] (o + 1)
  | label (o : Nat) (l : Bytes) (ls : List Bytes) (e : Nat) :
      1 ≤ l.length → l.length ≤ 63 →
      p[o]? = some (UInt8.ofNat l.length) →
      (∀ i, i < l.length → p[o + 1 + i]? = l[i]?) →
      NameAt p (o + 1 + l.length) ls e →
      NameAt p o (l :: ls) e
  | pointer (o : Nat) (b0 b1 : UInt8) (ls : List Bytes) (e : Nat) :
      p[o]? = some b0 → 0xc0 ≤ b0.toNat → p[o + 1]? = some b1 →
      (b0.toNat - 0xc0) * 256 + b1.toNat < o →
      NameAt p ((b0.toNat - 0xc0) * 256 + b1.toNat) ls e →
      NameAt p o ls (o + 2)

/-- Split at the dots; always at least one piece. -/
def splitDots : Bytes → List Bytes
  | [] => [[]]
  | c :: r =>
    if c = 0x2E then [] :: splitDots r
    else
      match splitDots r with
      | h :: t => (c :: h) :: t
      | [] => [[c]]

/-- Remove one trailing dot. -/
def stripDot (n : Bytes) : Bytes := if n.getLast? = some 0x2E then n.dropLast else n

/-- The labels of a host name in text form; one trailing dot is optional, the
empty name and "." are the root. -/
def labelsOf (n : Bytes) : List Bytes := if stripDot n = [] then [] else splitDots (stripDot n)

/-- A host name in text form that can be put on the wire: labels of 1 to 63
bytes, at most 254 characters without the trailing dot, no NUL. -/
structure HostName (n : Bytes) : Prop where
  labels : ∀ l ∈ labelsOf n, 1 ≤ l.length ∧ l.length ≤ 63
  len : (stripDot n).length ≤ 254
  nul : 0 ∉ n

/-- The canonical text form: every label followed by a dot. -/
def textOf (ls : List Bytes) : Bytes := ls.flatMap (· ++ [0x2E])

end Mdns.Spec
