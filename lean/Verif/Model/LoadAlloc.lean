import Verif.Model.Service

/-!
# Publishing a service when records get no memory, `src/conf.c`

Simplification: what is allocated for the data of a record that was made is there; C96 and C114 are about that.  So are the records that
`mdnsd_set_interface_addresses` makes, see C116.
-/

namespace Mdns.Conf

open Mdns M

variable {Q : Type} [QOps Q]

/-- The search of `record`, `src/conf.c:151-169`, `mdnsd_find` included. -/
def recordLook (host : Option Bytes) (name : Bytes) (type : Nat) : M Q (Option Nat) := do
  let f ← find name type
  match f, host with
  | none, _ => pure none
  | some r, none => pure (some r)
  | some r, some h => do
    let rest ← rBehind r
    recordScan h (r :: rest)

/-- `record`, `src/conf.c:145-182`; `mem`: a new record gets memory.  `none` is NULL, with which `mdnsd_set_host` does nothing
(`libmdnsd/mdnsd.c:1709`). -/
def recordF (mem share : Bool) (cb : Nat) (host : Option Bytes) (name : Bytes) (type ttl : Nat) : M Q (Option Nat) := do
  let g ← recordLook host name type
  match g with
  | some r => pure (some r)
  | none =>
    if mem then do
      let r ← recordNew share cb host name type ttl
      pure (some r)
    else pure none

/-- Which records of `load` get memory if they are new.  `src/conf.c:216-237`. -/
structure LoadLuck where
  enum : Bool := true
  ptr : Bool := true
  srv : Bool := true
  a : Bool := true
  aaaa : Bool := true
  cname : Bool := true
  txt : Bool := true

/-- `src/conf.c:233-236`. -/
def loadCnameF (mem : Bool) (cb : Nat) (s : SRec) (hostname : Bytes) : M Q Unit :=
  match s.cname with
  | none => pure ()
  | some a => do
    let _ ← recordF mem true cb (some (s.tgtlocal hostname)) (fqdn 256 a) 5 120
    pure ()

/-- `load`, `src/conf.c:200-252`.  `mdnsd_set_srv` and `mdnsd_set_raw` write through their argument without a check
(`libmdnsd/mdnsd.c:1732`, `1696`). -/
def loadF (l : LoadLuck) (cb : Nat) (s : SRec) (hostname : Bytes) (addrs : Option (List Ip4 × List Ip6)) : M Q Unit := do
  let _ ← recordF l.enum true cb (some s.tlocal) discoName 12 120
  let _ ← recordF l.ptr true cb (some (s.hlocal hostname)) s.tlocal 12 120
  let r ← recordF l.srv false cb none (s.hlocal hostname) 33 120
  match r with
  | none => ub
  | some r => do
    setSrv r 0 0 s.portOf (s.tgtlocal hostname)
    let _ ← recordF l.a false cb none (s.tgtlocal hostname) 1 120
    let _ ← recordF l.aaaa false cb none (s.tgtlocal hostname) 28 120
    loadAddrs addrs
    loadCnameF l.cname cb s hostname
    let r ← recordF l.txt false cb none (s.hlocal hostname) 16 4500
    match r with
    | none => ub
    | some r => setRaw r s.txtData

end Mdns.Conf
