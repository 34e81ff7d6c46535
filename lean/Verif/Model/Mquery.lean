import Verif.Model.CLib
import Verif.Model.SdTxt
import Verif.Model.DaemonTypes

/-!
# The device tables of `mquery`, `src/mquery.c`
-/

namespace Mdns.Mquery

open Mdns.CLib

/-- `struct instance`, `src/mquery.c:56-63`. -/
structure Inst where
  iname : Bytes
  hostname : Bytes := []
  port : Nat := 0
  product : Bytes := []
  version : Bytes := []
deriving Repr, DecidableEq

/-- `struct device`, `src/mquery.c:65-70`; `addrs` is the first `naddrs` entries. -/
structure Dev where
  hostname : Bytes
  addrs : List Bytes := []
deriving Repr, DecidableEq

/-- The two lists, head first, and the queries asked so far (not in the code).  `src/mquery.c:72-73`. -/
structure Tables where
  instances : List Inst := []
  devices : List Dev := []
  asked : List (Bytes × Nat) := []
deriving Repr, DecidableEq

/-- `find_or_create_instance`, `src/mquery.c:75-90`, followed by a change `f` of
the instance found or created.  Memory allocation does not fail. -/
def withInst (l : List Inst) (name : Bytes) (f : Inst → Inst) : List Inst :=
  match l.findIdx? (·.iname == name) with
  | some i => l.modify i f
  | none => f { iname := strlcpy name 256 } :: l

/-- `device_add_addr`, `src/mquery.c:109-118`; the array has 8 entries of
`INET6_ADDRSTRLEN` (46) bytes. -/
def addAddr (addr : Bytes) (d : Dev) : Dev :=
  if d.addrs.contains addr then d
  else if d.addrs.length < 8 then { d with addrs := d.addrs ++ [strlcpy addr 46] }
  else d

/-- `find_or_create_device` and `device_add_addr`, `src/mquery.c:92-118`. -/
def withDev (l : List Dev) (name : Bytes) (f : Dev → Dev) : List Dev :=
  match l.findIdx? (·.hostname == name) with
  | some i => l.modify i f
  | none => f { hostname := strlcpy name 256 } :: l

/-- The key `product`.  `src/mquery.c:300`. -/
abbrev kwProduct : Bytes := [0x70, 0x72, 0x6F, 0x64, 0x75, 0x63, 0x74]
/-- The key `version`.  `src/mquery.c:303`. -/
abbrev kwVersion : Bytes := [0x76, 0x65, 0x72, 0x73, 0x69, 0x6F, 0x6E]

/-- The part of `ans_dev` for TXT records, `src/mquery.c:297-307`. -/
def setTxt (t : Xht.Table) (i : Inst) : Inst :=
  let i := match Xht.get t kwProduct with
    | some v => if i.product.isEmpty then { i with product := strlcpy v.str 64 } else i
    | none => i
  match Xht.get t kwVersion with
    | some v => if i.version.isEmpty then { i with version := strlcpy v.str 64 } else i
    | none => i

/-- The text of an address.  `inet_ntop` is a parameter: it gives a
string of at most 45 bytes.  `src/mquery.c:311`, `317`. -/
structure Ntop where
  v4 : Ip4 → Bytes
  v6 : Ip6 → Bytes
  len4 : ∀ a, (v4 a).length ≤ 45
  len6 : ∀ a, (v6 a).length ≤ 45

/-- `ans_dev`, `src/mquery.c:256-327`.  `arg` tells whether `arg` is set. -/
def ansDev (np : Ntop) (t : Tables) (a : Answer) (arg : Bool) : Tables :=
  if a.ttl = 0 then t
  else if a.type = 12 then
    match a.rdname with
    | none => t
    | some rd =>
      if rd.isEmpty then t
      else if !arg then { t with asked := t.asked ++ [(rd, 12)] }
      else { t with instances := withInst t.instances rd id, asked := t.asked ++ [(rd, 33), (rd, 16)] }
  else if a.type = 33 then
    match a.rdname with
    | none => t
    | some rd =>
      if rd.isEmpty then t
      else
        let fresh := ((t.instances.find? (·.iname == a.name)).map (·.hostname)).getD []
        { t with
          instances := withInst t.instances a.name (fun i =>
            if i.hostname.isEmpty then { i with hostname := strlcpy rd 256, port := a.port } else i)
          asked := if fresh.isEmpty then t.asked ++ [(rd, 1), (rd, 28)] else t.asked }
  else if a.type = 16 then
    match a.rdata with
    | none => t
    | some rdata =>
      if rdata.length = 0 then t
      else
        match SdTxt.txt2sd rdata rdata.length with
        | .ok (some x) => { t with instances := withInst t.instances a.name (setTxt x) }
        | _ => { t with instances := withInst t.instances a.name id }
  else if a.type = 1 then { t with devices := withDev t.devices a.name (addAddr (np.v4 a.ip)) }
  else if a.type = 28 then { t with devices := withDev t.devices a.name (addAddr (np.v6 a.ip6)) }
  else t

/-- The calls of `ans_dev` one after the other.  `src/mquery.c:256-327`. -/
def run (np : Ntop) (as : List (Answer × Bool)) (t : Tables) : Tables :=
  as.foldl (fun t a => ansDev np t a.1 a.2) t

/-- `shortname`, `src/mquery.c:330-339`, with a buffer of 256 bytes. -/
def shortname (hostname : Bytes) : Bytes :=
  let b := strlcpy hostname 256
  if b.getLast? = some 0x2E then b.dropLast else b

/-- `matches_detail`, `src/mquery.c:341-357`. -/
def matchesDetail (detail : Option Bytes) (dev : Dev) : Bool :=
  match detail with
  | none => true
  | some d =>
    let fqdn := shortname dev.hostname
    let bare := (strlcpy fqdn 256).takeWhile (· != 0x2E)
    d == fqdn || d == dev.hostname || d == bare

end Mdns.Mquery
