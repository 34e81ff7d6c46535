import Verif.Model.Cache
import Verif.Model.Queues

/-!
# Records of `libmdnsd/mdnsd.c`: publishing, sending, withdrawing

Written once for both representations of the queues (`QOps`).
-/

namespace Mdns

open M

variable {Q : Type} [QOps Q]

/-- `_r_remove_lists`, `libmdnsd/mdnsd.c:265-278`. -/
def rRemoveLists (r : Nat) (skip : Option W) : M Q Unit :=
  liftQ fun q => (QOps.removeLists r skip q).bind fun q => .ok ((), q)

/-- `_r_push`, `libmdnsd/mdnsd.c:281-292`. -/
def rPush (w : W) (r : Nat) : M Q Unit :=
  liftQ fun q => (QOps.push w r q).bind fun q => .ok ((), q)

/-- The head of a queue.  `libmdnsd/mdnsd.c:102`. -/
def qHead (w : W) : M Q (Option Nat) := liftQ fun q => .ok (QOps.head w q, q)

/-- `r->list`.  `libmdnsd/mdnsd.c:93`. -/
def qNext (w : W) (r : Nat) : M Q (Option Nat) :=
  liftQ fun q => (QOps.next w r q).bind fun x => .ok (x, q)

/-- Bound for the loops along a queue.  Not in the code: for the loops `libmdnsd/mdnsd.c:772-817`, `1284-1402`. -/
def qFuel : M Q Nat := liftQ fun q => .ok (QOps.fuel q, q)

/-- `_r_publish`, `libmdnsd/mdnsd.c:295-309`. -/
def rPublish (r : Nat) : M Q Unit := do
  modRec r fun x => { x with modified := true }
  let x ← getRec r
  if x.unique ≠ 0 ∧ x.unique < 5 then pure ()
  else do
    modRec r fun x => { x with tries := 0 }
    modC fun c => { c with publish := c.now }
    rRemoveLists r (some .publish)
    rPush .publish r

/-- `_r_send`, `libmdnsd/mdnsd.c:312-336`. -/
def rSend (r : Nat) : M Q Unit := do
  let x ← getRec r
  if x.tries < 4 then modC fun c => { c with publish := c.now }
  else if x.unique ≠ 0 then do
    rRemoveLists r (some .now)
    rPush .now r
  else do
    modC fun c => { c with pause := ⟨c.now.sec, c.now.usec + c.now.usec % 100 + 20⟩ }
    rRemoveLists r (some .pause)
    rPush .pause r

/-- `_u_push`, `libmdnsd/mdnsd.c:339-352`. -/
def uPush (r id : Nat) (to : Addr) : M Q Unit :=
  modC fun c => { c with uanswers := ⟨id, to, r⟩ :: c.uanswers }

/-- `_u_remove`, `libmdnsd/mdnsd.c:355-373`. -/
def uRemove (r : Nat) : M Q Unit :=
  modC fun c => { c with uanswers := c.uanswers.filter fun u => u.r != r }

/-- `_free_record`, `libmdnsd/mdnsd.c:441-459`. -/
def freeRec (r : Nat) : M Q Unit := do
  let _ ← getRec r
  modC fun c => { c with recs := upd c.recs r none }
  liftQ fun q => (QOps.free r q).bind fun q => .ok ((), q)

/-- `_r_done`, `libmdnsd/mdnsd.c:462-484`. -/
def rDone (r : Nat) : M Q Unit := do
  let x ← getRec r
  let i := bucket x.rr.name sprime
  modC fun c => { c with published := upd c.published i ((c.published i).erase r) }
  uRemove r
  freeRec r

/-- `mdnsd_done`, `libmdnsd/mdnsd.c:1672-1692`. -/
def done (r : Nat) : M Q Unit := do
  let x ← getRec r
  if x.unique ≠ 0 ∧ x.unique < 5 then do
    liftQ fun q => (QOps.zapProbing r q).bind fun q => .ok ((), q)
    rDone r
  else do
    modRec r fun x => { x with rr := { x.rr with ttl := 0 } }
    rSend r

/-- `_conflict`, `libmdnsd/mdnsd.c:495-499`; a NULL callback is called without a check. -/
def conflict (r : Nat) : M Q Unit := do
  let x ← getRec r
  match x.conflict with
  | none => ub
  | some _ => do
    modC fun c => { c with log := c.log ++ [Event.conflict r x.rr.name x.rr.type] }
    done r

/-! ### Lookups -/

/-- The first record of a part of a hash chain matching name and type,
`libmdnsd/mdnsd.c:171-174`. -/
def rScan (host : Bytes) (type : Nat) : List Nat → M Q (Option Nat)
  | [] => pure none
  | r :: rest => do
    let x ← getRec r
    if x.rr.is host type then pure (some r) else rScan host type rest

/-- `_r_next` with `r` NULL, `libmdnsd/mdnsd.c:164-177`. -/
def rFirst (host : Bytes) (type : Nat) : M Q (Option Nat) := do
  let c ← core
  rScan host type (c.published (bucket host sprime))

/-- The elements behind `r`.  `q->list`, .. of `libmdnsd/mdnsd.c:1411-1444`. -/
def behind (r : Nat) (l : List Nat) : List Nat := (l.dropWhile (· != r)).drop 1

/-- The records behind `r` in its hash chain (`r->next`, ...).  `libmdnsd/mdnsd.c:169`, `1582-1585`. -/
def rBehind (r : Nat) : M Q (List Nat) := do
  let x ← getRec r
  let c ← core
  pure (behind r (c.published (bucket x.rr.name sprime)))

/-- `_r_next`, `libmdnsd/mdnsd.c:164-177`. -/
def rNext (r : Nat) (host : Bytes) (type : Nat) : M Q (Option Nat) := do
  let rest ← rBehind r
  rScan host type rest

/-! ### Creating and setting records -/

/-- `mdnsd_shared`, `libmdnsd/mdnsd.c:1592-1613`. -/
def shared (host : Bytes) (type ttl : Nat) : M Q Nat := do
  let i := bucket host sprime
  let r ← liftQ fun q => .ok (QOps.alloc q)
  modC fun c => { c with
    recs := upd c.recs r (some { rr := { name := host, type := type, ttl := ttl } })
    published := upd c.published i (r :: c.published i) }
  pure r

/-- `mdnsd_unique`, `libmdnsd/mdnsd.c:1615-1636`. -/
def unique (host : Bytes) (type ttl : Nat) (conflict : Option Nat) : M Q Nat := do
  let r ← shared host type ttl
  modRec r fun x => { x with conflict := conflict, unique := 1 }
  rRemoveLists r (some .probing)
  rPush .probing r
  modC fun c => { c with probe := c.now }
  pure r

/-- `mdnsd_set_raw`, `libmdnsd/mdnsd.c:1694-1705`. -/
def setRaw (r : Nat) (data : Bytes) : M Q Unit := do
  modRec r fun x => { x with rr := { x.rr with rdata := some data } }
  rPublish r

/-- `mdnsd_set_host`, `libmdnsd/mdnsd.c:1707-1716`. -/
def setHost (r : Nat) (name : Bytes) : M Q Unit := do
  modRec r fun x => { x with rr := { x.rr with rdname := some name } }
  rPublish r

/-- `mdnsd_set_ip`, `libmdnsd/mdnsd.c:1718-1722`. -/
def setIp (r : Nat) (ip : Ip4) : M Q Unit := do
  modRec r fun x => { x with rr := { x.rr with ip := ip } }
  rPublish r

/-- `mdnsd_set_ipv6`, `libmdnsd/mdnsd.c:1724-1728`. -/
def setIpv6 (r : Nat) (ip : Ip6) : M Q Unit := do
  modRec r fun x => { x with rr := { x.rr with ip6 := ip } }
  rPublish r

/-- `mdnsd_set_srv`, `libmdnsd/mdnsd.c:1730-1736`. -/
def setSrv (r priority weight port : Nat) (name : Bytes) : M Q Unit := do
  modRec r fun x => { x with
    rr := { x.rr with priority := priority, weight := weight, port := port } }
  setHost r name

/-- `mdnsd_find`, `libmdnsd/mdnsd.c:1648-1670`. -/
def find (name : Bytes) (type : Nat) : M Q (Option Nat) := do
  let c ← core
  go (c.published (bucket name sprime))
where
  go : List Nat → M Q (Option Nat)
    | [] => pure none
    | r :: rest => do
      let x ← getRec r
      if x.rr.type = type ∧ x.rr.name = name then pure (some r) else go rest

/-- `mdnsd_get_published`, `libmdnsd/mdnsd.c:1638-1641`. -/
def getPublished (host : Bytes) : M Q (Option Nat) := do
  let c ← core
  pure (c.published (bucket host sprime)).head?

/-- `mdnsd_record_next`, `libmdnsd/mdnsd.c:1582-1585`. -/
def recordNext (r : Nat) : M Q (Option Nat) := do
  let rest ← rBehind r
  pure rest.head?

/-! ### Address sets -/

/-- The address of an A or AAAA record or a wanted address, compared in
`libmdnsd/mdnsd.c:1764-1778`, `:1807-1813` (A for type 1, else AAAA). -/
def Answer.addrOf (a : Answer) (type : Nat) : Ip := if type = 1 then .v4 a.ip else .v6 a.ip6

/-- Search of `libmdnsd/mdnsd.c:1760-1781`. -/
def hasAddr (host : Bytes) (type : Nat) (want : Ip) : List Nat → M Q Bool
  | [] => pure false
  | r :: rest => do
    let x ← getRec r
    if x.rr.type = type ∧ x.rr.name = host ∧ x.rr.addrOf type = want then pure true
    else hasAddr host type want rest

/-- `mdnsd_set_ip` or `mdnsd_set_ipv6`, `libmdnsd/mdnsd.c:1787-1795`. -/
def setAddr (r : Nat) : Ip → M Q Unit
  | .v4 a => setIp r a
  | .v6 a => setIpv6 r a

/-- The adding loop, `libmdnsd/mdnsd.c:1758-1797`. -/
def addAddrs (host : Bytes) (type ttl : Nat) : List Ip → M Q Unit
  | [] => pure ()
  | want :: rest => do
    let c ← core
    let found ← hasAddr host type want (c.published (bucket host sprime))
    if found then addAddrs host type ttl rest
    else do
      let r ← shared host type ttl
      setAddr r want
      addAddrs host type ttl rest

/-- The removing loop, `libmdnsd/mdnsd.c:1801-1819`; `fuel` bounds the walk along the
chain, which changes while it is walked. -/
def dropAddrs (host : Bytes) (type : Nat) (want : List Ip) : Nat → Option Nat → M Q Unit
  | _, none => pure ()
  | 0, some _ => hang
  | fuel + 1, some cur => do
    let rest ← rBehind cur
    let x ← getRec cur
    if x.rr.type = type ∧ x.rr.name = host ∧ x.rr.addrOf type ∉ want then done cur
    dropAddrs host type want fuel rest.head?

/-- `_update_addresses_for_host`, `libmdnsd/mdnsd.c:1739-1822`.  The addresses are all
IPv4 for type A and all IPv6 for type AAAA. -/
def updateAddrs (host : Bytes) (type : Nat) (addrs : List Ip) : M Q Unit := do
  let f ← find host type
  let ttl ← match f with
    | none => pure 120
    | some r => do
      let x ← getRec r
      pure (if x.rr.ttl ≠ 0 then x.rr.ttl else 120)
  addAddrs host type ttl addrs
  let c ← core
  let l := c.published (bucket host sprime)
  dropAddrs host type addrs l.length l.head?

/-- `mdnsd_set_addresses_for_host`, `libmdnsd/mdnsd.c:1824-1827`. -/
def setAddressesForHost (host : Bytes) (a : List Ip4) : M Q Unit := updateAddrs host 1 (a.map Ip.v4)

/-- `mdnsd_set_ipv6_addresses_for_host`, `libmdnsd/mdnsd.c:1829-1832`. -/
def setIpv6AddressesForHost (host : Bytes) (a : List Ip6) : M Q Unit :=
  updateAddrs host 28 (a.map Ip.v6)

/-- The names collected by `mdnsd_set_interface_addresses`, `libmdnsd/mdnsd.c:1877-1903`:
of all A and AAAA records, each once, in order. -/
def hostNames : List Nat → List Bytes → M Q (List Bytes)
  | [], acc => pure acc
  | r :: rest, acc => do
    let x ← getRec r
    if (x.rr.type = 1 ∨ x.rr.type = 28) ∧ x.rr.name ∉ acc then hostNames rest (acc ++ [x.rr.name])
    else hostNames rest acc

/-- All published records, by bucket.  `libmdnsd/mdnsd.c:1992-2007`. -/
def Core.allPublished (c : Core) : List Nat := (List.range sprime).flatMap c.published

/-- `mdnsd_set_interface_addresses`, `libmdnsd/mdnsd.c:1834-1917`: `v4`, `v6` are the
addresses `getifaddrs` reports for the interface. -/
def setInterfaceAddresses (v4 : List Ip4) (v6 : List Ip6) : M Q Unit := do
  let c ← core
  let hosts ← hostNames c.allPublished []
  go hosts
where
  go : List Bytes → M Q Unit
    | [] => pure ()
    | h :: rest => do
      setAddressesForHost h v4
      setIpv6AddressesForHost h v6
      go rest

/-! ### Changing the own address, shutting down, clearing -/

/-- `r->rr.ttl = 0` and `a_now` linking, `libmdnsd/mdnsd.c:958-960`, `:1027-1029`. -/
def bye (r : Nat) : M Q Unit := do
  modRec r fun x => { x with rr := { x.rr with ttl := 0 } }
  liftQ fun q => (QOps.linkNow r q).bind fun q => .ok ((), q)

/-- Do something with every record of a list of records (the chains do not change
meanwhile).  `libmdnsd/mdnsd.c:949-968`, `985-1004`. -/
def forRecs (f : Nat → M Q Unit) : List Nat → M Q Unit
  | [] => pure ()
  | r :: rest => do
    f r
    forRecs f rest

/-- `mdnsd_set_address`, `libmdnsd/mdnsd.c:942-971`. -/
def setAddress (a : Ip4) : M Q Unit := do
  let c ← core
  if c.addr = a then pure ()
  else do
    forRecs (fun r => do
      let x ← getRec r
      if x.rr.type = 1 then (if a = ip4Zero then bye r else setIp r a) else pure ()) c.allPublished
    modC fun c => { c with addr := a }

/-- `mdnsd_set_ipv6_address`, `libmdnsd/mdnsd.c:978-1007`. -/
def setIpv6Address (a : Ip6) : M Q Unit := do
  let c ← core
  if c.addr6 = a then pure ()
  else do
    forRecs (fun r => do
      let x ← getRec r
      if x.rr.type = 28 then (if a = ip6Zero then bye r else setIpv6 r a) else pure ()) c.allPublished
    modC fun c => { c with addr6 := a }

/-- `mdnsd_shutdown`, `libmdnsd/mdnsd.c:1015-1035`. -/
def shutdown : M Q Unit := do
  liftQ fun q => (QOps.clearNow q).bind fun q => .ok ((), q)
  let c ← core
  forRecs bye c.allPublished
  modC fun c => { c with shutdown := true }

/-- `records_clear`, `libmdnsd/mdnsd.c:1992-2007`.  (The chains are emptied at the end;
nothing reads them in between.) -/
def recordsClear : M Q Unit := do
  let c ← core
  forRecs (fun r => do
    rRemoveLists r none
    uRemove r
    freeRec r) c.allPublished
  modC fun c => { c with published := fun i => if i < sprime then [] else c.published i }

end Mdns
