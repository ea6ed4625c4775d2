import Verif.Spec
import Verif.Model.F64

/-!
# Specification of the estimators

Formulas of the HyperLogLog papers on a list of register values, evaluated in `f64` arithmetic.
Only `F64` (the arithmetic) is shared with the model; powers of two are written as exact values.
-/

namespace HLL.Spec
open F64

/-- The number `n` as a double (`n` is small enough to be exact wherever this is used). -/
def num (n : Nat) : F64 := fin n

/-- The constant `α_m`, `m = 2^p`. -/
def alpha (p : Nat) : F64 :=
  if p = 4 then ofDec 673 3
  else if p = 5 then ofDec 697 3
  else if p = 6 then ofDec 709 3
  else div (ofDec 7213 4) (add (num 1) (div (ofDec 1079 3) (num (2 ^ p))))

/-- `2^-M[0] + 2^-M[1] + …`, added from left to right. -/
def harmonic (M : List Nat) : F64 := (M.map fun r => fin (1 / 2 ^ r)).foldl add (num 0)

/-- The raw estimate `α m² / Σ 2^-M[j]`. -/
def rawEstimate (p : Nat) (M : List Nat) : F64 :=
  div (mul (alpha p) (num (2 ^ p * 2 ^ p))) (harmonic M)

/-- Linear counting `m ln(m / V)`. -/
def linear (ln : F64 → F64) (m V : Nat) : F64 := mul (num m) (ln (div (num m) (num V)))

/-- The threshold below which linear counting is preferred, for precisions 4 to 18. -/
def threshold (p : Nat) : Nat :=
  [10, 10, 40, 80, 220, 400, 900, 1800, 3100, 6500, 11500, 20000, 50000, 120000, 350000].getD (p - 4) 0

/-- The dense estimate of HyperLogLog++ on registers `M` with bias function `bias`. -/
def plusDense (ln : F64 → F64) (bias : F64 → F64) (p : Nat) (M : List Nat) : F64 :=
  let V := M.count 0
  let raw := rawEstimate p M
  if V ≠ 0 ∧ le (linear ln (2 ^ p) V) (num (threshold p)) = true then linear ln (2 ^ p) V
  else if le raw (num (5 * 2 ^ p)) = true then sub raw (bias raw)
  else raw

/-- The estimate of HyperLogLog++ after seeing the hashes `S`. -/
def plusCount (ln : F64 → F64) (bias : Nat → F64 → F64) (p : Nat) (S : Finset Nat) : F64 :=
  if fitsSparse p S then linear ln (2 ^ 24) (2 ^ 24 - (codes p S).card)
  else plusDense ln (bias p) p (regs 64 p S)

/-- The estimate of the original HyperLogLog on registers `M`. -/
def pfDense (ln : F64 → F64) (p : Nat) (M : List Nat) : F64 :=
  let V := M.count 0
  let raw := rawEstimate p M
  if le raw (mul (ofDec 25 1) (num (2 ^ p))) = true ∧ V ≠ 0 then linear ln (2 ^ p) V
  else if gt raw (div (num (2 ^ 32)) (num 30)) = true then
    mul (mul (neg (num 1)) (num (2 ^ 32))) (ln (sub (num 1) (div raw (num (2 ^ 32)))))
  else raw

/-- The estimate of the original HyperLogLog after seeing the 32-bit hashes `S`. -/
def pfCount (ln : F64 → F64) (p : Nat) (S : Finset Nat) : F64 := pfDense ln p (regs 32 p S)

/-- Which estimator HyperLogLog++ uses after seeing the hashes `S`: 0 sparse, 1 linear counting,
2 bias corrected, 3 raw. -/
def plusRegime (ln : F64 → F64) (p : Nat) (S : Finset Nat) : Nat :=
  let M := regs 64 p S
  if fitsSparse p S then 0
  else if M.count 0 ≠ 0 ∧ le (linear ln (2 ^ p) (M.count 0)) (num (threshold p)) = true then 1
  else if le (rawEstimate p M) (num (5 * 2 ^ p)) = true then 2
  else 3

/-- Which estimator the original HyperLogLog uses after seeing the hashes `S`: 1 linear counting,
2 raw, 3 large range correction. -/
def pfRegime (p : Nat) (S : Finset Nat) : Nat :=
  let M := regs 32 p S
  if le (rawEstimate p M) (mul (ofDec 25 1) (num (2 ^ p))) = true ∧ M.count 0 ≠ 0 then 1
  else if gt (rawEstimate p M) (div (num (2 ^ 32)) (num 30)) = true then 3
  else 2

end HLL.Spec
