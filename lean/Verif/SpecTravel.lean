import Verif.SpecHistory
import Verif.Model.Travel

/-!
# Specification of sketches that travel between processes

Files hold meanings; reading gives back what was written.
-/

namespace HLL.Spec

variable {I : Type}

/-- What the jobs observe; `F` gives the estimate used on each machine. `none` if a file is missing. -/
def expectedJobs (w maxP : Nat) (F : Machine I → Nat → Finset Nat → F64) :
    List (Abs I) → List (Job I) → Option (List (List Out))
  | _, [] => some []
  | files, j :: js =>
    (j.inputs.mapM (fun n => files[n]?)).bind fun st =>
      (expectedJobs w maxP F (files ++ contentsFrom w maxP st j.ops) js).map fun oss =>
        expectedFrom w maxP (F j.machine) st j.ops :: oss

end HLL.Spec
