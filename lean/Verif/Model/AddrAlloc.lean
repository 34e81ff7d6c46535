import Verif.Model.Records

/-!
# Updating addresses when memory runs out, `libmdnsd/mdnsd.c`

The arrays with the addresses of the interface are those of C96 (`Vec` in `Model/Alloc`); here they got their memory.
-/

namespace Mdns

open M

variable {Q : Type} [QOps Q]

/-- The adding loop, `libmdnsd/mdnsd.c:1758-1797`; with each address whether `mdnsd_shared` gets memory for a record of it.  If not, the
loop goes on (`:1785-1786`). -/
def addAddrsF (host : Bytes) (type ttl : Nat) : List (Ip × Bool) → M Q Unit
  | [] => pure ()
  | (want, mem) :: rest => do
    let c ← core
    let found ← hasAddr host type want (c.published (bucket host sprime))
    if found then addAddrsF host type ttl rest
    else if mem then do
      let r ← shared host type ttl
      setAddr r want
      addAddrsF host type ttl rest
    else addAddrsF host type ttl rest

/-- `_update_addresses_for_host`, `libmdnsd/mdnsd.c:1739-1822`. -/
def updateAddrsF (host : Bytes) (type : Nat) (addrs : List (Ip × Bool)) : M Q Unit := do
  let f ← find host type
  let ttl ← match f with
    | none => pure 120
    | some r => do
      let x ← getRec r
      pure (if x.rr.ttl ≠ 0 then x.rr.ttl else 120)
  addAddrsF host type ttl addrs
  let c ← core
  let l := c.published (bucket host sprime)
  dropAddrs host type (addrs.map (·.1)) l.length l.head?

/-- `mdnsd_set_addresses_for_host`, `libmdnsd/mdnsd.c:1824-1827`. -/
def setAddressesForHostF (host : Bytes) (a : List (Ip4 × Bool)) : M Q Unit := updateAddrsF host 1 (a.map fun p => (.v4 p.1, p.2))

/-- `mdnsd_set_ipv6_addresses_for_host`, `libmdnsd/mdnsd.c:1829-1832`. -/
def setIpv6AddressesForHostF (host : Bytes) (a : List (Ip6 × Bool)) : M Q Unit := updateAddrsF host 28 (a.map fun p => (.v6 p.1, p.2))

/-- The names, `libmdnsd/mdnsd.c:1877-1903`; `mem r`: `realloc` and `strdup` succeed at record `r`.  If not, the name is left out, unless
another record has it. -/
def hostNamesF (mem : Nat → Bool) : List Nat → List Bytes → M Q (List Bytes)
  | [], acc => pure acc
  | r :: rest, acc => do
    let x ← getRec r
    if (x.rr.type = 1 ∨ x.rr.type = 28) ∧ x.rr.name ∉ acc ∧ mem r = true then hostNamesF mem rest (acc ++ [x.rr.name])
    else hostNamesF mem rest acc

/-- Which allocations of `mdnsd_set_interface_addresses` succeed: names by record, new records by host and number of the address.
`libmdnsd/mdnsd.c:1784`, `1896-1900`. -/
structure IfLuck where
  name : Nat → Bool
  v4 : Bytes → Nat → Bool
  v6 : Bytes → Nat → Bool

/-- The addresses with their luck.  `libmdnsd/mdnsd.c:1784`. -/
def lucky {α : Type} (m : Nat → Bool) (a : List α) : List (α × Bool) := a.zipIdx.map fun p => (p.1, m p.2)

/-- `mdnsd_set_interface_addresses`, `libmdnsd/mdnsd.c:1834-1917`. -/
def setInterfaceAddressesF (k : IfLuck) (v4 : List Ip4) (v6 : List Ip6) : M Q Unit := do
  let c ← core
  let hosts ← hostNamesF k.name c.allPublished []
  go hosts
where
  go : List Bytes → M Q Unit
    | [] => pure ()
    | h :: rest => do
      setAddressesForHostF h (lucky (k.v4 h) v4)
      setIpv6AddressesForHostF h (lucky (k.v6 h) v6)
      go rest

end Mdns
