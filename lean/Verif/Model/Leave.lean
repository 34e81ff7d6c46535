import Verif.Model.Free
import Verif.Model.Step

/-!
# Leaving the network

What `free_iface` of the daemon does with each of the two contexts of an interface, `src/mdnsd.c:141-164`.
-/

namespace Mdns

variable {Q : Type} [QOps Q]

/-- The step of `mdnsd_step` that only sends, `src/mdnsd.c:145-146` and `156-157`: `in` is false, `out` is true and `tv` is
NULL; it is left out when there is no socket.  The clock and what `sendto` does are taken from `io`.  The result is what is
handed to the socket. -/
def farewell (env : Env) (io : StepIo) (socket : Bool) (fuel : Nat) : M Q (List (Out × Addr)) :=
  if socket then do
    let o ← mdnsdStep env { io with input := false, output := true, wait := false } fuel
    pure o.packets
  else pure []

/-- `mdnsd_shutdown`, the step and `mdnsd_free`, `src/mdnsd.c:143-147` and `154-158`.  Descriptors and pointers of the
interface are in `Model/Process.lean`. -/
def leave (env : Env) (io : StepIo) (socket : Bool) (fuel : Nat) : M Q (List (Out × Addr)) := do
  shutdown
  let ms ← farewell env io socket fuel
  daemonFree
  pure ms

end Mdns
