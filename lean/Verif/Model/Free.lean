import Verif.Model.Daemon

/-!
# Freeing a context

`mdnsd_free`, `libmdnsd/mdnsd.c:1047-1102`.
-/

namespace Mdns

variable {Q : Type} [QOps Q]

/-- A query and its name are freed, `libmdnsd/mdnsd.c:1083-1084`; freeing what does not exist is undefined. -/
def freeQuery (q : Nat) : M Q Unit := M.liftC fun c =>
  match c.qs q with
  | none => .ub
  | some _ => .ok ((), { c with qs := upd c.qs q none })

/-- The loop over the tables of records and queries, `libmdnsd/mdnsd.c:1065-1087`.  The link to the next in a chain is read
before the object is freed. -/
def freeTables : List Nat → M Q Unit
  | [] => pure ()
  | i :: rest => do
    let c ← M.core
    forRecs freeRec (c.published i)
    forRecs freeQuery (c.queries i)
    freeTables rest

/-- `mdnsd_free`, `libmdnsd/mdnsd.c:1047-1102`, for a context that is not NULL.  The cache and the pending replies are
values in this model: their freeing leaves empty lists.  The list of local addresses is emptied. -/
def daemonFree : M Q Unit := do
  M.modC fun c => { c with cache := fun i => if i < lprime then [] else c.cache i }
  freeTables (List.range sprime)
  M.modC fun c => { c with uanswers := [], locals := [] }

end Mdns
