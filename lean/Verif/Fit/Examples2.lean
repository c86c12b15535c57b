import Verif.Fit.Props2
import Verif.Fit.Examples

/-!
# Concrete runs for C63 - C65
-/

namespace Verif.Fit.Demo

open Spec

/-- Everything `generate_columns` returned and everything offered to `add_column`, in order, and the counters. -/
def offered (r : Option (Except Err Unit × St DW ℕ ℕ)) : Option (List (List ℕ) × List ℕ × List ℕ) :=
  r.map fun r => (r.2.trace.filterMap (fun e => match e with | .generate _ _ _ (.ok cols) => some cols | _ => none),
    r.2.trace.filterMap col?, [r.2.est.numImproving, r.2.est.iter, r.2.trace.countP isImp])

/-- C63, C65: the last round offers all four columns although each is rejected; two of the three rounds improved. -/
example : offered (fit env (cfg (-1) 0) 10 [5, 3, 5] est0 ⟨0, 0, 3⟩) =
    some ([[7], [], [8, 9], [], [8, 9], [8, 9]], [7, 8, 9, 8, 9, 8, 9], [2, 3, 2]) := by
  decide +kernel

/-- C64: a master that rejects column 9 with an exception in the second round. -/
example : (fit { env with addColumn := fun c w => if c = 9 then (.error .keyError, w) else env.addColumn c w }
    (cfg (-1) 0) 10 [5, 3, 5] est0 ⟨0, 0, 3⟩).map
    (fun r => (match r.1 with | .error .keyError => true | _ => false, r.2.trace.filterMap col?,
      r.2.trace.getLast?.map (fun e => raised? e))) = some (true, [7, 8, 9], some (some .keyError)) := by
  decide +kernel

end Verif.Fit.Demo
