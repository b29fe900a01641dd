import Verif.Model.Background
import Mathlib.Data.List.Perm.Subperm
import Mathlib.Data.List.Range
import Mathlib.Data.List.Nodup
import Mathlib.Tactic.Common
/-! Vocabulary for the statements in Props/Background.lean. -/
namespace Imgaug.Props
open Imgaug Imgaug.Background

/-- Steps that a worker process can still make without further batches. -/
def workerSteps : WSt → Nat
  | .idle => 4
  | .has _ => 6
  | .gotNone => 3
  | .ending => 2
  | .done => 0
  | .dead _ => 0

/-- Bound for the number of steps that are still possible. -/
def stepsLeft (n : Nat) (s : St) : Nat :=
  4 * s.left.length + (if s.loaderDone then 0 else 1) + 3 * (s.src.filterMap id).length +
    ((List.range n).map fun w => workerSteps (s.workers w)).sum + s.res.length

end Imgaug.Props
