import Mathlib.Analysis.SpecialFunctions.Log.Deriv
import Mathlib.Analysis.SpecialFunctions.Pow.Real
import Mathlib.Data.Rat.Floor
import Mathlib.Tactic.NormNum.BigOperators

/-!
# The polynomial of `src/log.rs` and `ln 2`

`log((1+s)/(1-s)) = 2s + s R(s²)` with `R(z) = Σ 2 z^i / (2i+1)`.  The bound on the difference of
`R` and the polynomial of the code is checked on 256 subintervals, each with exact arithmetic on
the Taylor expansion around its middle.
-/

namespace HLL.LogPoly

/-- Horner evaluation of the polynomial with the given coefficients, constant one first. -/
def eval {K : Type*} [Field K] : List ℚ → K → K
  | [], _ => 0
  | c :: cs, x => (c : K) + x * eval cs x

/-- Coefficients of `c + (X + a) * Q`. -/
def mulLin (a : ℚ) : ℚ → List ℚ → List ℚ
  | c, [] => [c]
  | c, q :: qs => (c + a * q) :: mulLin a q qs

/-- Coefficients of `P(X + a)`. -/
def shift (a : ℚ) : List ℚ → List ℚ
  | [] => []
  | c :: cs => mulLin a c (shift a cs)

/-- A bound of `|P(x)|` for `|x| ≤ h`. -/
def absBound (h : ℚ) : List ℚ → ℚ
  | [] => 0
  | c :: cs => |c| + h * absBound h cs

theorem eval_mulLin (a : ℚ) (x : ℝ) : ∀ (Q : List ℚ) (c : ℚ),
    eval (mulLin a c Q) x = c + (x + a) * eval Q x
  | [], c => by simp [mulLin, eval]
  | q :: qs, c => by
    rw [mulLin, eval, eval_mulLin a x qs q, eval]
    push_cast
    ring

theorem eval_shift (a : ℚ) (x : ℝ) : ∀ P : List ℚ, eval (shift a P) x = eval P (x + a)
  | [] => rfl
  | c :: cs => by rw [shift, eval_mulLin, eval_shift a x cs, eval]

theorem absBound_nonneg {h : ℚ} (hh : 0 ≤ h) : ∀ P : List ℚ, 0 ≤ absBound h P
  | [] => le_rfl
  | c :: cs => by
    rw [absBound]
    have := absBound_nonneg hh cs
    positivity

theorem abs_eval_le {h : ℚ} {x : ℝ} (hx : |x| ≤ h) : ∀ P : List ℚ, |eval P x| ≤ absBound h P
  | [] => by simp [eval, absBound]
  | c :: cs => by
    have hh : (0 : ℝ) ≤ h := le_trans (abs_nonneg x) hx
    rw [eval, absBound]
    push_cast
    refine le_trans (abs_add_le _ _) (add_le_add le_rfl ?_)
    rw [abs_mul]
    exact mul_le_mul hx (abs_eval_le hx cs) (abs_nonneg _) hh

/-- Bounding a polynomial on `[0, 2 h n]` by checking `n` subintervals. -/
theorem abs_eval_le_of_check {P : List ℚ} {h B : ℚ} {n : ℕ} (hh : 0 < h)
    (hc : ∀ i < n, absBound h (shift (h * (2 * i + 1)) P) ≤ B) {z : ℝ} (h0 : 0 ≤ z)
    (h1 : z < 2 * h * n) : |eval P z| ≤ B := by
  have hh' : (0 : ℝ) < h := by exact_mod_cast hh
  have h2 : (0 : ℝ) < 2 * h := by linarith
  set i := ⌊z / (2 * h)⌋₊ with hi
  have h3 : (i : ℝ) ≤ z / (2 * h) := Nat.floor_le (by positivity)
  have h4 : z / (2 * h) < i + 1 := Nat.lt_floor_add_one _
  rw [le_div_iff₀ h2] at h3
  rw [div_lt_iff₀ h2] at h4
  have hin : i < n := by
    have : (i : ℝ) < n := by
      by_contra hcon
      rw [not_lt] at hcon
      have := mul_le_mul_of_nonneg_right hcon h2.le
      linarith
    exact_mod_cast this
  have h5 : |z - ((h * (2 * i + 1) : ℚ) : ℝ)| ≤ h := by
    push_cast
    rw [abs_le]
    constructor <;> linarith
  have h6 := abs_eval_le h5 (shift (h * (2 * i + 1)) P)
  rw [eval_shift, sub_add_cancel] at h6
  exact le_trans h6 (by exact_mod_cast hc i hin)

/-- The coefficients `LG1, …, LG7` of the code, as numbers. -/
def lg : List ℚ :=
  [6004799503160723 / 2 ^ 53, 7205759403686404 / 2 ^ 54, 5146971033736025 / 2 ^ 54,
   8006390766270639 / 2 ^ 55, 6551322304906206 / 2 ^ 55, 5517391500461727 / 2 ^ 55,
   5331612937900612 / 2 ^ 55]

/-- Coefficients of the polynomial of the code minus those of the first 12 terms of `R`. -/
def diffPoly : List ℚ :=
  [0, 6004799503160723 / 2 ^ 53 - 2 / 3, 7205759403686404 / 2 ^ 54 - 2 / 5,
   5146971033736025 / 2 ^ 54 - 2 / 7,
   8006390766270639 / 2 ^ 55 - 2 / 9, 6551322304906206 / 2 ^ 55 - 2 / 11,
   5517391500461727 / 2 ^ 55 - 2 / 13,
   5331612937900612 / 2 ^ 55 - 2 / 15, -2 / 17, -2 / 19, -2 / 21, -2 / 23, -2 / 25]

theorem diff_check : ∀ i < 256, absBound (29446560 / 10 ^ 9 / 512)
    (shift (29446560 / 10 ^ 9 / 512 * (2 * (i : ℕ) + 1)) diffPoly) ≤ 2520 / 10 ^ 21 := by
  decide +kernel

/-- The series of `log((1+s)/(1-s))` cut after `n` terms. -/
theorem atanh_err (n : ℕ) {s : ℝ} (hs : |s| < 1) :
    |Real.log (1 + s) - Real.log (1 - s) - ∑ k ∈ Finset.range n, 2 * (1 / (2 * (k : ℝ) + 1)) * s ^ (2 * k + 1)| ≤
      2 * |s| ^ (2 * n + 1) / (2 * n + 1) / (1 - s ^ 2) := by
  have h := Real.hasSum_log_sub_log_of_abs_lt_one hs
  have hs2 : s ^ 2 < 1 := by rw [← sq_abs]; exact pow_lt_one₀ (abs_nonneg s) hs (by norm_num)
  have h1 := (hasSum_nat_add_iff' n).2 h
  have hg : HasSum (fun k : ℕ => 2 * |s| ^ (2 * n + 1) / (2 * n + 1) * (s ^ 2) ^ k)
      (2 * |s| ^ (2 * n + 1) / (2 * n + 1) * (1 - s ^ 2)⁻¹) :=
    (hasSum_geometric_of_lt_one (sq_nonneg s) hs2).mul_left _
  have h2 := h1.norm_le_of_bounded hg (fun k => ?_)
  · rw [Real.norm_eq_abs] at h2
    rw [div_eq_mul_inv _ (1 - s ^ 2)]
    exact h2
  · rw [Real.norm_eq_abs, abs_mul, abs_pow]
    have e1 : (s ^ 2) ^ k = |s| ^ (2 * k) := by rw [pow_mul, sq_abs]
    rw [e1, div_mul_eq_mul_div, mul_assoc 2, ← pow_add, show 2 * n + 1 + 2 * k = 2 * (k + n) + 1 by ring]
    have e2 : |2 * (1 / (2 * ((k + n : ℕ) : ℝ) + 1))| ≤ 2 * (1 / (2 * n + 1)) := by
      rw [abs_of_nonneg (by positivity)]
      apply mul_le_mul_of_nonneg_left _ (by norm_num)
      apply one_div_le_one_div_of_le (by positivity)
      push_cast
      have : (0 : ℝ) ≤ k := Nat.cast_nonneg k
      linarith
    calc _ ≤ 2 * (1 / (2 * (n : ℝ) + 1)) * |s| ^ (2 * (k + n) + 1) :=
          mul_le_mul_of_nonneg_right e2 (by positivity)
      _ = _ := by ring

/-- The polynomial of the code, `LG1 z + … + LG7 z^7`. -/
noncomputable def poly {K : Type*} [Field K] (z : K) : K := z * eval lg z

/-- `R(s²)`, where `log((1+s)/(1-s)) = 2s + s R(s²)`: the error of the polynomial of the code is at
most `2^-58.45`, as the comment in the code says (here multiplied by `s`). -/
theorem poly_err {s : ℝ} (hs : |s| < 1716 / 10000) :
    |s * (2 + poly (s ^ 2)) - (Real.log (1 + s) - Real.log (1 - s))| ≤ |s| * (2530 / 10 ^ 21) := by
  have h1 := atanh_err 13 (s := s) (by linarith)
  have hz0 : 0 ≤ s ^ 2 := sq_nonneg s
  have hz1 : s ^ 2 < (1716 / 10000) ^ 2 := by
    rw [← sq_abs]; exact pow_lt_pow_left₀ hs (abs_nonneg s) (by norm_num)
  have h2 := abs_eval_le_of_check (by norm_num) diff_check hz0 (by push_cast; norm_num at hz1 ⊢; exact hz1)
  have h3 : s * (2 + poly (s ^ 2)) - ∑ k ∈ Finset.range 13, 2 * (1 / (2 * (k : ℝ) + 1)) * s ^ (2 * k + 1) =
      s * eval diffPoly (s ^ 2) := by
    simp only [Finset.sum_range_succ, Finset.sum_range_zero, poly, lg, diffPoly, eval]
    push_cast
    ring
  have h4 : 2 * |s| ^ (2 * 13 + 1) / (2 * (13 : ℕ) + 1) / (1 - s ^ 2) ≤ |s| * (10 / 10 ^ 21) := by
    have e1 : |s| ^ (2 * 13 + 1) = |s| * (s ^ 2) ^ 13 := by rw [pow_succ', pow_mul, sq_abs]
    have e2 : (s ^ 2) ^ 13 ≤ ((1716 / 10000) ^ 2) ^ 13 := pow_le_pow_left₀ hz0 hz1.le 13
    have e3 : (s ^ 2) ^ 13 ≤ 13 / 10 ^ 21 := by norm_num at e2 ⊢; linarith
    rw [e1, div_le_iff₀ (by norm_num at hz1 ⊢; linarith), div_le_iff₀ (by norm_num)]
    have e4 : |s| * (s ^ 2) ^ 13 ≤ |s| * (13 / 10 ^ 21) :=
      mul_le_mul_of_nonneg_left e3 (abs_nonneg s)
    have e5 : |s| * (9 / 10) ≤ |s| * (1 - s ^ 2) :=
      mul_le_mul_of_nonneg_left (by norm_num at hz1 ⊢; linarith) (abs_nonneg s)
    push_cast
    have e6 : |s| * (10 / 10 ^ 21) * (1 - s ^ 2) * (2 * 13 + 1) = (|s| * (1 - s ^ 2)) * (270 / 10 ^ 21) := by
      ring
    rw [e6]
    nlinarith [abs_nonneg s]
  have h5 : |s * eval diffPoly (s ^ 2)| ≤ |s| * (2520 / 10 ^ 21) := by
    rw [abs_mul]
    refine mul_le_mul_of_nonneg_left ?_ (abs_nonneg s)
    refine le_trans h2 ?_
    push_cast
    norm_num
  rw [← h3] at h5
  have h6 := h1.trans h4
  rw [abs_le] at h5 h6 ⊢
  constructor <;> linarith [h5.1, h5.2, h6.1, h6.2]

/-- The bound in the comment of the code. -/
theorem poly_err_two_pow {s : ℝ} (hs : |s| < 1716 / 10000) (h0 : s ≠ 0) :
    |poly (s ^ 2) - ((Real.log (1 + s) - Real.log (1 - s)) / s - 2)| ≤ 2 ^ (-(58.45 : ℝ)) := by
  have h1 := poly_err hs
  have hs0 : 0 < |s| := abs_pos.2 h0
  have h2 : poly (s ^ 2) - ((Real.log (1 + s) - Real.log (1 - s)) / s - 2) =
      (s * (2 + poly (s ^ 2)) - (Real.log (1 + s) - Real.log (1 - s))) / s := by
    field_simp
    ring
  rw [h2, abs_div, div_le_iff₀ hs0, mul_comm (2 ^ _) |s|]
  refine le_trans h1 (mul_le_mul_of_nonneg_left ?_ hs0.le)
  have h3 : ((2 : ℝ) ^ (-(58.45 : ℝ))) ^ (20 : ℕ) = 2 ^ (-(1169 : ℤ)) := by
    rw [← Real.rpow_natCast, ← Real.rpow_mul (by norm_num), ← Real.rpow_intCast]
    norm_num
  by_contra hcon
  rw [not_le] at hcon
  have h4 := pow_lt_pow_left₀ hcon (by positivity) (n := 20) (by norm_num)
  have h5 : (2 : ℝ) ^ (-(1169 : ℤ)) = 1 / (2 ^ 167) ^ 7 := by
    rw [zpow_neg, ← pow_mul, one_div]; rfl
  rw [h3, h5] at h4
  norm_num at h4

/-- `ln 2` to 22 digits: the two constants of the code. -/
theorem ln2_err : |Real.log 2 - (2977044471 / 2 ^ 32 + 7382048951581814 / 2 ^ 85)| ≤ 1 / 10 ^ 22 := by
  have h1 := atanh_err 25 (s := 1 / 3) (by rw [abs_of_pos] <;> norm_num)
  have h2 : Real.log (1 + 1 / 3) - Real.log (1 - 1 / 3) = Real.log 2 := by
    rw [← Real.log_div (by norm_num) (by norm_num)]; norm_num
  rw [h2] at h1
  simp only [Finset.sum_range_succ, Finset.sum_range_zero] at h1
  rw [abs_of_pos (by norm_num : (0 : ℝ) < 1 / 3)] at h1
  norm_num at h1
  rw [abs_le] at h1 ⊢
  constructor <;> norm_num <;> linarith [h1.1, h1.2]

end HLL.LogPoly
