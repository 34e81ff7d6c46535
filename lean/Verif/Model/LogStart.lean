import Verif.Model.LogSys
import Verif.Model.Options

/-!
# Where the messages of `mdnsd` go, `src/mdnsd.c:318-384`

The options of `Model/Options` with the logger of `Model/LogSys`.
-/

namespace Mdns.Opt

open Mdns.Log (Logger Dest)

/-- The logger after the options and `mdnsd_log_open`, `src/mdnsd.c:318-374`; `none` for undefined behaviour. -/
def logger (o : Opts) (sys : Bool) : Option Logger :=
  let g : Logger := { level := o.loglevel }
  if sys then Log.logOpen g else some g

/-- Where a message can be read: `daemon(0, 0)`, `src/mdnsd.c:376-382`, makes stdout and stderr `/dev/null`. -/
def readable (o : Opts) (g : Logger) (severity : Nat) : Dest :=
  match Log.log g severity with
  | .nowhere => .nowhere
  | .syslog => .syslog
  | .stdout => if o.background then .nowhere else .stdout
  | .stderr => if o.background then .nowhere else .stderr

end Mdns.Opt
