import Verif.Model.Service

/-!
# Reading the configuration again, `src/mdnsd.c` and `src/conf.c`
-/

namespace Mdns.Conf

open Mdns M

variable {Q : Type} [QOps Q]

/-- What `conf_init` finds at the path, `src/conf.c:304-348`. -/
inductive Source where
  /-- `stat` or `glob` fails; this includes a directory without `.service` files -/
  | missing
  /-- a file, or the files of a directory in the order of `glob`; `none` if one cannot be opened -/
  | files (fs : List (Option Bytes))

/-- `conf_init`, `src/conf.c:276-352`, for one of the contexts of the interface (`load_all` does the same to
the other): `base` is the name given with `-H` or by `gethostname`. -/
def confInit (cb : Nat) (base : Bytes) (hostid : Nat) (addrs : Nat → Option (List Ip4 × List Ip6)) : Source → M Q Nat
  | .missing => pure 1
  | .files fs => loadFiles cb (hostname base hostid) addrs fs 0

/-- What the main loop does to a context when `reload` is set, `src/mdnsd.c:424-431` (the value of
`conf_init` is not looked at). -/
def reload (cb : Nat) (base : Bytes) (hostid : Nat) (addrs : Nat → Option (List Ip4 × List Ip6)) (p : Source) : M Q Unit := do
  recordsClear
  let _ ← confInit cb base hostid addrs p
  pure ()

end Mdns.Conf
