import Verif.Model.CLib

/-!
# The default interface of `mquery`
-/

namespace Mdns.Route

open Mdns.CLib

/-- What `sscanf` gives for a line of `/proc/net/route`, `src/mquery.c:139-141`: the number of fields converted, and those that are used.
Simplification: reading the line is left to the C library; `name` has at most 16 characters. -/
structure Line where
  rc : Nat
  name : Bytes
  dest : Nat
  flags : Nat
  mask : Nat
deriving DecidableEq, Repr

/-- `t`, `u`, `n`.  `src/mquery.c:150`. -/
def tun : Bytes := [0x74, 0x75, 0x6E]

/-- The loop of `getifname`, `src/mquery.c:136-155`: `ifname` afterwards, and `found`. -/
def scan (ifname : Bytes) (len : Nat) : List Line → Bytes × Bool
  | [] => (ifname, false)
  | l :: ls =>
    if l.rc < 10 ∨ l.flags % 2 = 0 then scan ifname len ls
    else if l.dest ≠ 0 ∨ l.mask ≠ 0 then scan ifname len ls
    else if ifname = [] ∨ ifname.take 3 = tun then (strlcpy l.name len, true)
    else scan ifname len ls

/-- `getifname(ifname, len)`, `src/mquery.c:125-162`, with the table of routes (`none`: it cannot be opened). -/
def getifname (ifname : Bytes) (len : Nat) (table : Option (List Line)) : Option Bytes :=
  match table with
  | none => none
  | some ls => match scan ifname len ls with
    | (i, true) => some i
    | (_, false) => none

/-- The interface `mquery` uses, `src/mquery.c:516`, `src/mquery.c:594-595`; `opt` is the argument of `-i`. -/
def chosen (opt : Option Bytes) (table : Option (List Line)) : Option Bytes :=
  match opt with
  | some i => some i
  | none => getifname [] 16 table

end Mdns.Route
