import Verif.Model.F64
import Mathlib.Analysis.SpecialFunctions.Log.Basic

/-!
# What is assumed of the natural logarithm

`HyperLogLog` calls `f64::ln` (with `std`) or the crate's own `log` (without).  Theorems about the
numbers returned by `count` assume the following about that function.  `lnRound`, the correctly
rounded logarithm, satisfies it (`Verif/Proofs/Ln.lean`), and so does the crate's own `log`
(`Verif/Props/Log.lean`).
-/

namespace HLL
open F64

/-- `ln` is accurate to about 12 significant digits: far less than what any usual implementation
of `f64::ln` guarantees. -/
structure LnSpec (ln : F64 → F64) : Prop where
  /-- On positive finite doubles the relative error is at most `2^-40`. -/
  pos : ∀ q : ℚ, rnd q = q → 0 < q → q < 2 ^ 1024 →
    ∃ y : ℚ, ln (fin q) = fin y ∧ |(y : ℝ) - Real.log q| ≤ |Real.log q| / 2 ^ 40
  /-- `ln 0 = -∞`. -/
  zero : ln (fin 0) = inf true
  /-- `ln` of a negative number is NaN. -/
  neg : ∀ q : ℚ, rnd q = q → q < 0 → -2 ^ 1024 < q → ln (fin q) = nan

/-- The correctly rounded logarithm. -/
noncomputable def lnRound : F64 → F64
  | .nan => .nan
  | .inf true => .nan
  | .inf false => .inf false
  | .negZero => .inf true
  | .fin q => if q = 0 then .inf true else if q < 0 then .nan else round false (Real.log q)

end HLL
