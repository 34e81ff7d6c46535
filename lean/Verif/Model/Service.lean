import Verif.Model.Conf
import Verif.Model.Records
import Verif.Model.SdTxt

/-!
# Publishing service files, `src/conf.c`

`record`, `load` and `conf_init` as sequences of calls of the library, for one of the contexts of
an interface (`load_all`, `src/conf.c:266-274`, does the same to the other).
-/

namespace Mdns.Conf

open Mdns M
open Mdns.CLib (snprintf)

variable {Q : Type} [QOps Q]

/-- The loop of `record`, `src/conf.c:151-169`, along the chain of the records from the one that
was found: the first whose name is `host` or that has none. -/
def recordScan (host : Bytes) : List Nat → M Q (Option Nat)
  | [] => pure none
  | r :: rest => do
    let x ← getRec r
    if x.rr.rdname = none ∨ x.rr.rdname = some host then pure (some r) else recordScan host rest

/-- `src/conf.c:172-175`; `cb` names `mdnsd_conflict` with the interface. -/
def recordMake (share : Bool) (cb : Nat) (name : Bytes) (type ttl : Nat) : M Q Nat :=
  if share then shared name type ttl else unique name type ttl (some cb)

/-- `src/conf.c:171-179`. -/
def recordNew (share : Bool) (cb : Nat) (host : Option Bytes) (name : Bytes) (type ttl : Nat) : M Q Nat := do
  let r ← recordMake share cb name type ttl
  match host with
  | none => pure r
  | some h => do
    setHost r h
    pure r

/-- `record`, `src/conf.c:145-182`.  `mdnsd_record_data` never gives NULL. -/
def record (share : Bool) (cb : Nat) (host : Option Bytes) (name : Bytes) (type ttl : Nat) : M Q Nat := do
  let f ← find name type
  match f, host with
  | none, _ => recordNew share cb host name type ttl
  | some r, none => pure r
  | some r, some h => do
    let rest ← rBehind r
    let g ← recordScan h (r :: rest)
    match g with
    | some r => pure r
    | none => recordNew share cb host name type ttl

/-- `_http._tcp`.  `src/conf.c:203`. -/
abbrev httpTcp : Bytes := [0x5F, 0x68, 0x74, 0x74, 0x70, 0x2E, 0x5F, 0x74, 0x63, 0x70]

/-- `srec.type`, `src/conf.c:202-203`. -/
def SRec.typeOf (s : SRec) : Bytes := s.type.getD httpTcp

/-- `srec.name`, `src/conf.c:200-201`. -/
def SRec.nameOf (s : SRec) (hostname : Bytes) : Bytes := s.name.getD hostname

/-- `hlocal`, `src/conf.c:205`. -/
def SRec.hlocal (s : SRec) (hostname : Bytes) : Bytes :=
  snprintf (s.nameOf hostname ++ 0x2E :: s.typeOf ++ dotLocal) 256

/-- `tlocal`, `src/conf.c:206`. -/
def SRec.tlocal (s : SRec) : Bytes := snprintf (s.typeOf ++ dotLocal) 256

/-- `tgtlocal`, `src/conf.c:210-213`. -/
def SRec.tgtlocal (s : SRec) (hostname : Bytes) : Bytes :=
  match s.target with
  | some t => fqdn 256 t
  | none => Conf.target hostname

/-- The table of the TXT lines, `src/conf.c:239-249`; lines without `=` are left out.  Key and
value are parts of the line, with addresses of their own. -/
def txtOps : List Bytes → Nat → List Xht.Op
  | [], _ => []
  | t :: rest, i =>
    if 0x3D ∈ t then
      .set (2 * i) (t.takeWhile (· != 0x3D)) (some (2 * i + 1, (t.dropWhile (· != 0x3D)).drop 1)) :: txtOps rest (i + 1)
    else txtOps rest (i + 1)

/-- The TXT data, `src/conf.c:239-250`. -/
def SRec.txtData (s : SRec) : Bytes := (SdTxt.sd2txt (Xht.run (Xht.new 11) (txtOps s.txt 0))).1

/-- `(unsigned short)srec.port`.  `src/conf.c:223`. -/
def SRec.portOf (s : SRec) : Nat := (s.port % 65536).toNat

/-- `src/conf.c:230`: `addrs` are the addresses of the interface, `none` if `getifaddrs` fails. -/
def loadAddrs : Option (List Ip4 × List Ip6) → M Q Unit
  | none => pure ()
  | some (v4, v6) => setInterfaceAddresses v4 v6

/-- `src/conf.c:233-236`. -/
def loadCname (cb : Nat) (s : SRec) (hostname : Bytes) : M Q Unit :=
  match s.cname with
  | none => pure ()
  | some a => do
    let _ ← record true cb (some (s.tgtlocal hostname)) (fqdn 256 a) 5 120
    pure ()

/-- `load`, `src/conf.c:200-252`, after the file has been read.  Types: PTR 12, SRV 33, A 1, AAAA 28,
CNAME 5, TXT 16.  Allocation does not fail. -/
def load (cb : Nat) (s : SRec) (hostname : Bytes) (addrs : Option (List Ip4 × List Ip6)) : M Q Unit := do
  let _ ← record true cb (some s.tlocal) discoName 12 120
  let _ ← record true cb (some (s.hlocal hostname)) s.tlocal 12 120
  let r ← record false cb none (s.hlocal hostname) 33 120
  setSrv r 0 0 s.portOf (s.tgtlocal hostname)
  let _ ← record false cb none (s.tgtlocal hostname) 1 120
  let _ ← record false cb none (s.tgtlocal hostname) 28 120
  loadAddrs addrs
  loadCname cb s hostname
  let r ← record false cb none (s.hlocal hostname) 16 4500
  setRaw r s.txtData

/-- `load`, `src/conf.c:184-263`, of a file: `none` if it cannot be opened.  Gives the return value. -/
def loadFile (cb : Nat) (file : Option Bytes) (hostname : Bytes) (addrs : Option (List Ip4 × List Ip6)) : M Q Nat :=
  match file with
  | none => pure 1
  | some b => match parse b with
    | .oob => ub
    | .ok s => do
      load cb s hostname addrs
      pure 0

/-- The files of `conf_init`, `src/conf.c:344-345`, in the order of `glob`; `addrs i` is what
`getifaddrs` reports for file `i`. -/
def loadFiles (cb : Nat) (hostname : Bytes) (addrs : Nat → Option (List Ip4 × List Ip6)) : List (Option Bytes) → Nat → M Q Nat
  | [], _ => pure 0
  | f :: rest, i => do
    let a ← loadFile cb f hostname (addrs i)
    let b ← loadFiles cb hostname addrs rest (i + 1)
    pure (a ||| b)

end Mdns.Conf
