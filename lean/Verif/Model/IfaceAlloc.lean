import Verif.Model.Iface

/-!
# New interfaces when memory runs out, `src/addr.c`

`iface_init` as in `Model/Iface`, but `calloc` for a new `struct iface` (`src/addr.c:178`) may fail; then the process
ends with `exit(1)` (`src/addr.c:181`).  Which allocations succeed is unknown.
-/

namespace Mdns.Iface

/-- The table, and how many interfaces have been allocated in this call.  `src/addr.c:124-226`. -/
structure Scan where
  t : List Iface
  n : Nat := 0
deriving Repr, DecidableEq

/-- The body of the loop of `iface_init`, `src/addr.c:138-222`, as `visit`; `mem k` tells whether the `k`-th `calloc`
succeeds.  `none` for `exit(1)`, `src/addr.c:178-182`. -/
def visitM (ifname : Option Bytes) (mem : Nat → Bool) (s : Scan) (e : Ifa) : Option Scan :=
  match usable ifname e with
  | none => some s
  | some a =>
    match find s.t e.name with
    | none => if mem s.n then some { t := s.t ++ [take { name := e.name } a], n := s.n + 1 } else none
    | some _ => some { s with t := modify (fun i => take { i with unused := false } a) e.name s.t }

/-- The loop of `iface_init`, `src/addr.c:138-222`. -/
def visitsM (ifname : Option Bytes) (mem : Nat → Bool) : List Ifa → Scan → Option Scan
  | [], s => some s
  | e :: l, s =>
    match visitM ifname mem s e with
    | none => none
    | some s => visitsM ifname mem l s

/-- `iface_init`, `src/addr.c:124-226`, with the number of interfaces it has allocated; `l` is `none` if `getifaddrs`
fails, the result is `none` for `exit(1)`. -/
def scanM (ifname : Option Bytes) (mem : Nat → Bool) (l : Option (List Ifa)) (t : List Iface) : Option Scan :=
  match l with
  | none => some { t := t }
  | some l =>
    match visitsM ifname mem l { t := t.map mark1 } with
    | none => none
    | some s => some { s with t := s.t.map sweep1 }

end Mdns.Iface
