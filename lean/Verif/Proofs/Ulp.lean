import Verif.Proofs.Approx
import Mathlib.Algebra.Order.Archimedean.Real.Basic

/-!
# Errors in units in the last place
-/

namespace HLL.F64

/-- The exponent of the last place below a power of two. -/
theorem ulpExp_le_of_lt {x : ℚ} (hx : x ≠ 0) {E : ℤ} (hE : -1000 ≤ E) (h : |x| < 2 ^ E) :
    ulpExp x ≤ E - 53 := by
  have := (Int.lt_zpow_iff_log_lt (b := 2) (by norm_num) (abs_pos.2 hx)).1 (by exact_mod_cast h)
  exact max_le (by omega) (by omega)

/-- Absolute rounding error below a power of two. -/
theorem rnd_err_abs {x : ℚ} {E : ℤ} (hE : -1000 ≤ E) (h : |x| < 2 ^ E) :
    |rnd x - x| ≤ 2 ^ (E - 54) := by
  rcases eq_or_ne x 0 with rfl | hx
  · rw [rnd_zero, sub_zero, abs_zero]; positivity
  have h1 := abs_rnd_sub_le x
  rw [Rat.cast_id] at h1
  refine h1.trans ?_
  rw [div_le_iff₀ (by norm_num)]
  have : (2 : ℚ) ^ (E - 54) * 2 = 2 ^ (E - 53) := by
    rw [show E - 53 = E - 54 + 1 by ring, zpow_add₀ (by norm_num), zpow_one]
  rw [this]
  exact zpow_le_zpow_right₀ (by norm_num) (ulpExp_le_of_lt hx hE h)

/-- The last place between two powers of two. -/
theorem ulpExp_eq {x : ℚ} {E : ℤ} (hE : -1000 ≤ E) (h : |x| < 2 ^ (E + 1)) (h' : 2 ^ E ≤ |x|) :
    ulpExp x = E - 52 := by
  have hx : x ≠ 0 := by
    rintro rfl
    rw [abs_zero] at h'
    exact absurd h' (not_le.2 (by positivity))
  have h1 : Int.log 2 |x| < E + 1 :=
    (Int.lt_zpow_iff_log_lt (b := 2) (by norm_num) (abs_pos.2 hx)).1 (by exact_mod_cast h)
  have h2 : E ≤ Int.log 2 |x| :=
    (Int.zpow_le_iff_le_log (b := 2) (by norm_num) (abs_pos.2 hx)).1 (by exact_mod_cast h')
  unfold ulpExp
  omega

/-- Integers are no closer than the rounded number. -/
theorem abs_rne_sub_le_int (z : ℚ) (n : ℤ) : |(rne z : ℚ) - z| ≤ |(n : ℚ) - z| := by
  rcases eq_or_ne n (rne z) with h | h
  · rw [h]
  · have h1 := abs_rne_sub_le z
    have h2 : (1 : ℚ) ≤ |((n - rne z : ℤ) : ℚ)| := by
      exact_mod_cast Int.one_le_abs (sub_ne_zero.2 h)
    have h3 : |((n - rne z : ℤ) : ℚ)| ≤ |(n : ℚ) - z| + |(rne z : ℚ) - z| := by
      have : ((n - rne z : ℤ) : ℚ) = ((n : ℚ) - z) - ((rne z : ℚ) - z) := by push_cast; ring
      rw [this]; exact abs_sub _ _
    linarith

/-- Above a power of two the rounding error is at most the distance from it. -/
theorem rnd_err_above {x : ℚ} {E : ℤ} (hE : -1000 ≤ E) (h : |x| < 2 ^ (E + 1)) (h' : 2 ^ E ≤ |x|) :
    |rnd x - x| ≤ |x| - 2 ^ E := by
  wlog h0 : 0 ≤ x generalizing x
  · have := this (x := -x) (by rwa [abs_neg]) (by rwa [abs_neg]) (by linarith)
    rw [rnd_neg, abs_neg, ← neg_add', abs_neg] at this
    rwa [sub_eq_add_neg]
  have e := ulpExp_eq hE h h'
  rw [abs_of_nonneg h0] at h h' ⊢
  have hp := two_pow_pos (K := ℚ) (E - 52)
  have key := abs_rne_sub_le_int (x / 2 ^ (E - 52)) (2 ^ 52)
  have e1 : rnd x - x = ((rne (x / 2 ^ (E - 52)) : ℚ) - x / 2 ^ (E - 52)) * 2 ^ (E - 52) := by
    unfold rnd
    rw [e, sub_mul, div_mul_cancel₀ _ hp.ne']
  have e2 : (2 : ℚ) ^ E - x = (((2 ^ 52 : ℤ) : ℚ) - x / 2 ^ (E - 52)) * 2 ^ (E - 52) := by
    rw [sub_mul, div_mul_cancel₀ _ hp.ne', int_two_pow_mul]
    congr 2; push_cast; ring
  rw [e1, abs_mul, abs_of_pos hp]
  refine (mul_le_mul_of_nonneg_right key hp.le).trans ?_
  rw [← abs_of_pos hp, ← abs_mul, abs_of_pos hp, ← e2, abs_sub_comm, abs_of_nonneg (by linarith)]

/-- If the number before rounding is within half a unit in the last place of the exact value, the
result is within one unit. -/
theorem rnd_one_ulp {S : ℚ} {L : ℝ} {E : ℤ} (hE : -900 ≤ E) (h2 : |L| < 2 ^ (E + 1))
    (h3 : |(S : ℝ) - L| < 2 ^ (E - 53)) : |((rnd S : ℚ) : ℝ) - L| < 2 ^ (E - 52) := by
  have hw : (2 : ℝ) ^ (E - 52) = 2 ^ (E - 53) + 2 ^ (E - 53) := by
    rw [show E - 52 = E - 53 + 1 by ring, zpow_add₀ (by norm_num), zpow_one]; ring
  have hr : |((rnd S : ℚ) : ℝ) - S| ≤ 2 ^ (E - 53) := by
    rcases lt_or_ge |S| (2 ^ (E + 1)) with h | h
    · have := rnd_err_abs (by omega) h
      rw [show E + 1 - 54 = E - 53 by ring] at this
      have := (Rat.cast_le (K := ℝ)).2 this
      push_cast at this
      exact this
    · have hS : |(S : ℝ)| ≤ |L| + |(S : ℝ) - L| := by
        have := abs_add_le L ((S : ℝ) - L); rwa [add_sub_cancel] at this
      have h4 : |S| < 2 ^ (E + 1 + 1) := by
        have : |(S : ℝ)| < 2 ^ (E + 1 + 1) := by
          have e1 : (2 : ℝ) ^ (E + 1 + 1) = 2 ^ (E + 1) + 2 ^ (E + 1) := by
            rw [zpow_add₀ (by norm_num) (E + 1), zpow_one]; ring
          have e2 : (2 : ℝ) ^ (E - 53) ≤ 2 ^ (E + 1) := zpow_le_zpow_right₀ (by norm_num) (by omega)
          linarith
        have h5 : ((|S| : ℚ) : ℝ) < ((2 ^ (E + 1 + 1) : ℚ) : ℝ) := by push_cast; exact this
        exact_mod_cast h5
      have := rnd_err_above (E := E + 1) (by omega) h4 h
      have := (Rat.cast_le (K := ℝ)).2 this
      push_cast at this
      linarith
  have := abs_sub_le ((rnd S : ℚ) : ℝ) S L
  linarith

/-- Doubles between two powers of two are multiples of the last place. -/
theorem mul_ulp {x : ℚ} (hx : rnd x = x) {E : ℤ} (hE : -1000 ≤ E) (h : |x| < 2 ^ (E + 1))
    (h' : 2 ^ E ≤ |x|) : ∃ n : ℤ, x = n * 2 ^ (E - 52) := by
  refine ⟨rne (x / 2 ^ (E - 52)), ?_⟩
  rw [← ulpExp_eq hE h h']
  exact hx.symm

end HLL.F64
