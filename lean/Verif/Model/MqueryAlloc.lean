import Verif.Model.Mquery

/-!
# The device tables of `mquery` when memory runs out, `src/mquery.c`

Simplification: what `txt2sd` and `mdnsd_query` allocate is there (C110 and C96 are about these).
-/

namespace Mdns.Mquery

open Mdns.CLib

/-- Whether `find_or_create_instance` gives a pointer, `src/mquery.c:75-90`; `mem`: `calloc` succeeds. -/
def gotInst (mem : Bool) (l : List Inst) (name : Bytes) : Bool := (l.findIdx? (·.iname == name)).isSome || mem

/-- Whether `find_or_create_device` gives a pointer, `src/mquery.c:92-107`. -/
def gotDev (mem : Bool) (l : List Dev) (name : Bytes) : Bool := (l.findIdx? (·.hostname == name)).isSome || mem

/-- `ans_dev`, `src/mquery.c:256-327`; `none` if a NULL pointer is used.  The result of `find_or_create_instance` is used for SRV
records (`:287`) and where a TXT record has one of two keys (`:301`, `:304`), that of `find_or_create_device` always (`:113`). -/
def ansDevF (mem : Bool) (np : Ntop) (t : Tables) (a : Answer) (arg : Bool) : Option Tables :=
  if a.ttl = 0 then some t
  else if a.type = 12 then
    match a.rdname with
    | none => some t
    | some rd =>
      if rd.isEmpty then some t
      else if !arg then some { t with asked := t.asked ++ [(rd, 12)] }
      else some { t with
        instances := if gotInst mem t.instances rd then withInst t.instances rd id else t.instances
        asked := t.asked ++ [(rd, 33), (rd, 16)] }
  else if a.type = 33 then
    match a.rdname with
    | none => some t
    | some rd =>
      if rd.isEmpty then some t
      else if gotInst mem t.instances a.name then
        let fresh := ((t.instances.find? (·.iname == a.name)).map (·.hostname)).getD []
        some { t with
          instances := withInst t.instances a.name (fun i =>
            if i.hostname.isEmpty then { i with hostname := strlcpy rd 256, port := a.port } else i)
          asked := if fresh.isEmpty then t.asked ++ [(rd, 1), (rd, 28)] else t.asked }
      else none
  else if a.type = 16 then
    match a.rdata with
    | none => some t
    | some rdata =>
      if rdata.length = 0 then some t
      else
        match SdTxt.txt2sd rdata rdata.length with
        | .ok (some x) =>
          if gotInst mem t.instances a.name then some { t with instances := withInst t.instances a.name (setTxt x) }
          else if (Xht.get x kwProduct).isSome || (Xht.get x kwVersion).isSome then none
          else some t
        | _ => some { t with instances := if gotInst mem t.instances a.name then withInst t.instances a.name id else t.instances }
  else if a.type = 1 then
    if gotDev mem t.devices a.name then some { t with devices := withDev t.devices a.name (addAddr (np.v4 a.ip)) } else none
  else if a.type = 28 then
    if gotDev mem t.devices a.name then some { t with devices := withDev t.devices a.name (addAddr (np.v6 a.ip6)) } else none
  else some t

/-- The calls of `ans_dev` one after the other, each with whether `calloc` succeeds in it.  `src/mquery.c:256-327`. -/
def runF (np : Ntop) : List ((Answer × Bool) × Bool) → Tables → Option Tables
  | [], t => some t
  | (a, mem) :: rest, t => match ansDevF mem np t a.1 a.2 with
    | some t => runF np rest t
    | none => none

end Mdns.Mquery
