import Verif.Props.Options
import Verif.Props.Rivals

/-!
# C93: numbers of types that are too large
-/

namespace Mdns

open Sample in
/-- C93: `mquery -t 65548 a.` takes the number as it is (`src/mquery.c:575`).  The question in the packet has the type 12, because only
16 bits are sent, but the answer of that type is not told: the query is still one for 65548. -/
theorem C93_type_counterexample : ∃ (o : Opt.QOpts) (name : Bytes) (ty : Nat) (h : List Call) (d : D Ptrs),
    Opt.mquery false [[0x2D, 0x74], [0x36, 0x35, 0x35, 0x34, 0x38], name] = .inl (o, some name) ∧ o.type = ty ∧
    Hist quiet h d ∧ h.map (·.1) = [.query name ty (some 1), .send (at_ 100), .recv (at_ 100) (ptrMsg 120) other] ∧
    (spoken srcA h).map (·.qd) = [[⟨name, 12, 1⟩]] ∧ (ptrMsg 120).an.map (fun a => (a.name, a.type)) = [(name, 12)] ∧
    d.c.log = [.registered name ty 1] :=
  ⟨{ type := 65548 }, nm 97, 65548, _, _, by decide +kernel, rfl,
    hist_of (ops := [.query (nm 97) 65548 (some 1), .send (at_ 100), .recv (at_ 100) (ptrMsg 120) other]) (by decide +kernel), by decide +kernel,
    by decide +kernel, by decide +kernel, by decide +kernel⟩

end Mdns
