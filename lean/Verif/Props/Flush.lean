import Verif.Props.Receiving

/-!
# C94: flushing
-/

namespace Mdns

/-- `mdnsd_flush`, `libmdnsd/mdnsd.c:1037-1045`: the body is a comment. -/
def mdnsdFlush {Q : Type} : M Q Unit := pure ()

open Sample in
/-- C94: `mdnsd_flush` ("flush all cached records, network or interface changed") leaves the cache as it is. -/
theorem C94_flush_counterexample : ∃ h d d', Hist quiet h d ∧ mdnsdFlush d = .ok ((), d') ∧ (d'.c.listed (nm 97) 12).length = 1 :=
  ⟨_, _, _, hist_of (ops := [.recv (at_ 100) (ptrMsg 120) other]) (by decide +kernel), rfl, by decide +kernel⟩

/-- C94, harmless: it changes nothing at all. -/
theorem C94_nothing_partial {Q : Type} (d : D Q) : mdnsdFlush d = .ok ((), d) := rfl

end Mdns
