import Verif.Proofs.AllError
import Verif.Proofs.Fourth
import Mathlib.Analysis.Convex.SpecificFunctions.Basic

/-!
# The error in terms of the deviations, however large they are

`AllError.lean` bounds the error by the deviations when these are below a tenth, and needs many
registers for the other cases to be rare.  Here the deviations can be of any size, as long as the
harmonic sum is at least half of its mean; the remaining cases are covered by `Fourth.lean`.  This works
from 256 registers.
-/

namespace HLL
open Spec F64 Finset Exps

variable {ln : F64 → F64} {p n w : Nat} {δ : ℝ}

/-! ## Linear counting -/

theorem log_bounds : 1.33629 ≤ Real.log (1 / 0.2625) ∧ Real.log (1 / 0.2625) ≤ 1.3387 := by
  have h4 : Real.log 4 = 2 * Real.log 2 := by
    rw [show (4 : ℝ) = 2 ^ 2 by norm_num, Real.log_pow]; norm_num
  have e : Real.log (1 / 0.2625) = Real.log 4 - Real.log 1.05 := by
    rw [← Real.log_div (by norm_num) (by norm_num)]; norm_num
  have h1 := Real.log_two_gt_d9
  have h2 := Real.log_two_lt_d9
  have h3 : Real.log 1.05 ≤ 0.05 := by
    refine (Real.log_le_sub_one_of_pos (by norm_num)).trans (by norm_num)
  have h5 : 0.0476 ≤ Real.log 1.05 := by
    have := Real.one_sub_inv_le_log_of_pos (x := 1.05) (by norm_num)
    refine le_trans ?_ this
    norm_num
  rw [e, h4]
  norm_num at *
  constructor <;> linarith

/-- Linear counting is used when more than a quarter of the registers are empty. -/
theorem linear_low (hln : LnSpec ln) (hp1 : 8 ≤ p) (hp2 : p ≤ 18) {V : Nat} (hV : V ≠ 0) (hVm : V ≤ 2 ^ p)
    (h : le (linear ln (2 ^ p) V) (num (threshold p)) = true) : 0.2625 * 2 ^ p ≤ (V : ℝ) := by
  by_contra hcon
  rw [not_le] at hcon
  have h18 : 2 ^ p ≤ 2 ^ 18 := Nat.pow_le_pow_right (by norm_num) hp2
  obtain ⟨y, h1, -, h2⟩ := linear_approx hln (m := 2 ^ p) (V := V) (by omega) hVm (by omega)
  rw [h1, num, le_fin] at h
  have h' : (y : ℝ) ≤ threshold p := by exact_mod_cast h
  have ht := threshold_le_mul' hp1 hp2
  have hm := m_ge hp1
  have hV0 : (0 : ℝ) < V := by exact_mod_cast Nat.pos_of_ne_zero hV
  have hl : Real.log (1 / 0.2625) ≤ Real.log (((2 ^ p : ℕ) : ℝ) / V) := by
    apply Real.log_le_log (by norm_num)
    rw [div_le_div_iff₀ (by norm_num) hV0]
    push_cast
    linarith
  push_cast at h2 hl
  have h3 : (2 : ℝ) ^ p * 1.33629 ≤ 2 ^ p * Real.log (2 ^ p / V) := by
    gcongr; exact log_bounds.1.trans hl
  have h4 := (abs_le.1 h2).1
  generalize (2 : ℝ) ^ p * Real.log (2 ^ p / V) = L at *
  norm_num at h3 h4 ht
  linarith

/-- The logarithm below one. -/
theorem neg_log_le {t : ℝ} (h0 : 0.2625 ≤ t) (h1 : t ≤ 1) : -Real.log t ≤ 1.8152 * (1 - t) := by
  have hc := strictConcaveOn_log_Ioi.concaveOn.2 (show (0.2625 : ℝ) ∈ Set.Ioi 0 by norm_num)
    (show (1 : ℝ) ∈ Set.Ioi 0 by norm_num)
    (show 0 ≤ (1 - t) / 0.7375 from div_nonneg (by linarith) (by norm_num))
    (show 0 ≤ (t - 0.2625) / 0.7375 from div_nonneg (by linarith) (by norm_num)) (by ring)
  rw [smul_eq_mul, smul_eq_mul, smul_eq_mul, smul_eq_mul, Real.log_one, mul_zero, add_zero] at hc
  have e : (1 - t) / 0.7375 * 0.2625 + (t - 0.2625) / 0.7375 * 1 = t := by ring
  rw [e] at hc
  have e2 : Real.log 0.2625 = -Real.log (1 / 0.2625) := by rw [one_div, Real.log_inv]; ring
  have h2 := log_bounds.2
  rw [e2] at hc
  have h3 : (1 - t) / 0.7375 * Real.log (1 / 0.2625) ≤ (1 - t) / 0.7375 * 1.3387 := by
    refine mul_le_mul_of_nonneg_left h2 (div_nonneg (by linarith) (by norm_num))
  norm_num at *
  linarith

/-- The error of linear counting in terms of the number of empty registers. -/
theorem linear_point (hln : LnSpec ln) (hp1 : 8 ≤ p) (hp2 : p ≤ 18) {V : Nat} (hVm : V ≤ 2 ^ p)
    (hV : 0.2625 * 2 ^ p ≤ (V : ℝ)) :
    ∃ y : ℚ, linear ln (2 ^ p) V = fin y ∧
      |(y : ℝ) - n| ≤ 1.8152 * (2 ^ p * (|(V : ℝ) - 2 ^ p * (1 - 1 / 2 ^ p) ^ n| /
        (2 ^ p * (1 - 1 / 2 ^ p) ^ n))) + 1.02 / 2 ^ p * (n + 1.6 * 2 ^ p) := by
  have h18 : 2 ^ p ≤ 2 ^ 18 := Nat.pow_le_pow_right (by norm_num) hp2
  have hm := m_ge hp1
  have hm2 := m_le hp2
  have hV0 : (0 : ℝ) < V := lt_of_lt_of_le (by positivity) hV
  obtain ⟨y, k1, -, k2⟩ := linear_approx hln (m := 2 ^ p) (V := V) (by exact_mod_cast hV0) hVm (by omega)
  refine ⟨y, k1, ?_⟩
  have hVm' : (V : ℝ) ≤ 2 ^ p := by exact_mod_cast hVm
  push_cast at k2
  have hlup : Real.log ((2 : ℝ) ^ p / V) ≤ 1.3387 := by
    refine le_trans (Real.log_le_log (by positivity) ?_) log_bounds.2
    rw [div_le_div_iff₀ hV0 (by norm_num)]
    linarith
  have hl0 : 0 ≤ Real.log ((2 : ℝ) ^ p / V) :=
    Real.log_nonneg (by rw [le_div_iff₀ hV0]; linarith)
  have hn0 : (0 : ℝ) ≤ n := Nat.cast_nonneg _
  have e0 : 1.02 / (2 : ℝ) ^ p * (n + 1.6 * 2 ^ p) = 1.02 * (n / 2 ^ p) + 1.632 := by
    field_simp; ring
  rw [e0]
  generalize (2 : ℝ) ^ p = m at *
  have hm0 : (0 : ℝ) < m := by linarith
  have hx : 1 / m ≤ 1 / 256 := by gcongr
  have hq0 : (0 : ℝ) < 1 - 1 / m := by norm_num at hx ⊢; linarith
  have hμ0 : 0 < m * (1 - 1 / m) ^ n := by positivity
  have hμm : m * (1 - 1 / m) ^ n ≤ m := by
    have h1 : 1 - 1 / m ≤ 1 := by have : 0 < 1 / m := by positivity
                                  linarith
    have : (1 - 1 / m) ^ n ≤ 1 := pow_le_one₀ hq0.le h1
    nlinarith
  have hlogμ : Real.log (m / (m * (1 - 1 / m) ^ n)) = n * -Real.log (1 - 1 / m) := by
    rw [show m / (m * (1 - 1 / m) ^ n) = ((1 - 1 / m) ^ n)⁻¹ by field_simp, Real.log_inv,
      Real.log_pow]
    ring
  have hl1 : 1 / m ≤ -Real.log (1 - 1 / m) := by
    have := Real.log_le_sub_one_of_pos hq0
    linarith
  have hl2 : -Real.log (1 - 1 / m) ≤ 1 / (m - 1) := by
    rw [← Real.log_inv]
    have := Real.log_le_sub_one_of_pos (inv_pos.2 hq0)
    refine this.trans (le_of_eq ?_)
    have : m - 1 ≠ 0 := by linarith
    field_simp
    ring
  have hA1 : (n : ℝ) ≤ m * Real.log (m / (m * (1 - 1 / m) ^ n)) := by
    rw [hlogμ]
    calc (n : ℝ) = m * (n * (1 / m)) := by field_simp
      _ ≤ _ := by gcongr
  have hA2 : m * Real.log (m / (m * (1 - 1 / m) ^ n)) ≤ n + 1.004 * (n / m) := by
    rw [hlogμ]
    have h1 : m - 1 ≠ 0 := by linarith
    have h2 : 0 < m - 1 := by linarith
    calc m * (n * -Real.log (1 - 1 / m)) ≤ m * (n * (1 / (m - 1))) := by gcongr
      _ = n + n / (m - 1) := by field_simp; ring
      _ ≤ _ := by
        rw [add_le_add_iff_left, ← mul_div_assoc, div_le_div_iff₀ h2 hm0]
        norm_num
        nlinarith
  generalize m * (1 - 1 / m) ^ n = μ at *
  have hsplit : Real.log (m / V) = Real.log (m / μ) + Real.log (μ / V) := by
    rw [← Real.log_mul (by positivity) (by positivity)]
    congr 1; field_simp
  have hB : |Real.log (μ / V)| ≤ 1.8152 * (|(V : ℝ) - μ| / μ) := by
    have h4 : Real.log (μ / V) = -Real.log (V / μ) := by rw [← Real.log_inv, inv_div]
    have hd : |(V : ℝ) - μ| / μ = |V / μ - 1| := by
      rw [div_sub_one hμ0.ne', abs_div, abs_of_pos hμ0]
    rw [h4, abs_neg, hd]
    have ht0 : 0.2625 ≤ V / μ := by
      rw [le_div_iff₀ hμ0]
      have : 0.2625 * μ ≤ 0.2625 * m := by gcongr
      linarith
    generalize (V : ℝ) / μ = t at *
    rcases le_total 1 t with h | h
    · rw [abs_of_nonneg (Real.log_nonneg h), abs_of_nonneg (by linarith)]
      have := Real.log_le_sub_one_of_pos (x := t) (by linarith)
      norm_num; linarith
    · have hn : Real.log t ≤ 0 := Real.log_nonpos (by norm_num at ht0; linarith) h
      rw [abs_of_nonpos hn, abs_of_nonpos (by linarith)]
      have := neg_log_le ht0 h
      linarith
  have hC := mul_le_mul_of_nonneg_left hB hm0.le
  obtain ⟨k3, k4⟩ := abs_le.1 k2
  rw [hsplit] at k3 k4 hlup hl0
  have hn1 : 0 ≤ (n : ℝ) / m := by positivity
  have hC1 : m * Real.log (μ / V) ≤ m * |Real.log (μ / V)| := by
    gcongr; exact le_abs_self _
  have hC2 : -(m * |Real.log (μ / V)|) ≤ m * Real.log (μ / V) := by
    rw [← mul_neg]; gcongr; exact neg_abs_le _
  have hL : m * (Real.log (m / μ) + Real.log (μ / V)) ≤ m * 1.3387 := by gcongr
  have hL0 : 0 ≤ m * (Real.log (m / μ) + Real.log (μ / V)) := by positivity
  have e1 : 1.8152 * (m * (|(V : ℝ) - μ| / μ)) = m * (1.8152 * (|(V : ℝ) - μ| / μ)) := by ring
  rw [e1]
  generalize m * (1.8152 * (|(V : ℝ) - μ| / μ)) = D at *
  rw [mul_add] at k3 k4 hL hL0
  generalize m * Real.log (m / μ) = a at *
  generalize m * Real.log (μ / V) = b at *
  norm_num at *
  rw [abs_le]
  constructor <;> linarith

/-! ## The raw estimate -/

/-- The harmonic sum is at least the number of empty registers. -/
theorem zeros_le_harm (h : Fin n → Fin (2 ^ 64)) : (zeros w p (hashSet w h) : ℝ) ≤ harm w p h := by
  unfold zeros harm
  rw [Finset.card_eq_sum_ones, Nat.cast_sum, sum_filter]
  refine sum_le_sum fun j _ => ?_
  split
  · rename_i h0; rw [h0]; simp
  · positivity

/-- The harmonic sum relative to its mean. -/
noncomputable def harmRatio (p n : Nat) (h : Fin n → Fin (2 ^ 64)) : ℝ :=
  harm 64 p h / (2 ^ p * moment 64 p n (1 / 2))

theorem harmDev_eq (h : Fin n → Fin (2 ^ 64)) : harmDev p n h = harmRatio p n h - 1 := by
  have := moment_half_pos (w := 64) (p := p) (n := n)
  unfold harmDev harmRatio
  field_simp

/-- The inverse of the ratio, above one half. -/
theorem inv_ratio {z : ℝ} (hz : 1 / 2 < z) : |1 / z - 1| ≤ 2 * |z - 1| := by
  have hz0 : 0 < z := by linarith
  have e : 1 / z - 1 = (1 / z) * (1 - z) := by field_simp
  rw [e, abs_mul, abs_sub_comm 1, abs_of_pos (by positivity)]
  refine mul_le_mul_of_nonneg_right ?_ (abs_nonneg _)
  rw [div_le_iff₀ hz0]; linarith

/-- The raw estimate for up to `6 m` values. -/
theorem raw_any (hp1 : 8 ≤ p) (hp2 : p ≤ 18) (hn : n ≤ 6 * 2 ^ p) (h : Fin n → Fin (2 ^ 64))
    (hz : 1 / 2 < harmRatio p n h) :
    (1 - (2.014 * |harmDev p n h| + 1.7 / 2 ^ p)) * (alphaQ p * 2 ^ p) ≤
        rawQ p (hsum 0 (regs 64 p (hashSet 64 h))) * E (n / 2 ^ p) ∧
      rawQ p (hsum 0 (regs 64 p (hashSet 64 h))) * E (n / 2 ^ p) ≤
        (1 + (2.014 * |harmDev p n h| + 1.7 / 2 ^ p)) * (alphaQ p * 2 ^ p) := by
  have hr := raw_ratio (w := 64) (n := n) (p := p) (by omega) hp2 (by omega) h
  change |_ - centre 64 p n * (1 / harmRatio p n h)| ≤ centre 64 p n * (1 / harmRatio p n h) / 2 ^ 32 at hr
  rw [harmDev_eq]
  have hi := inv_ratio hz
  have hz0 : 0 < harmRatio p n h := by linarith
  have hx2 : 1 / harmRatio p n h ≤ 2 := by rw [div_le_iff₀ hz0]; linarith
  have hx0 : 0 < 1 / harmRatio p n h := by positivity
  have hα := alpha_ge hp1 hp2
  have hA : (0 : ℝ) < alphaQ p * 2 ^ p := mul_pos (by linarith) (by positivity)
  obtain ⟨h1, h2⟩ := moment_half_bounds (w := 64) (p := p) (n := n) (by omega) hp2 (by omega) hn
  have hE := E_pos ((n : ℝ) / 2 ^ p)
  have hM := moment_half_pos (w := 64) (p := p) (n := n)
  have hm := m_ge hp1
  have hm2 := m_le hp2
  have hw0 : 1 / 2 ^ 18 ≤ 1 / (2 : ℝ) ^ p := by gcongr
  have hw : 1 / (2 : ℝ) ^ p ≤ 1 / 256 := by gcongr
  have e1 : 1.5 / (2 : ℝ) ^ p = 1.5 * (1 / 2 ^ p) := by ring
  have e2 : 1.7 / (2 : ℝ) ^ p = 1.7 * (1 / 2 ^ p) := by ring
  rw [e1] at h1
  rw [e2]
  have hd0 : 0 ≤ |harmRatio p n h - 1| := abs_nonneg _
  obtain ⟨i1, i2⟩ := abs_le.1 hi
  unfold centre at hr
  generalize (rawQ p (hsum 0 (regs 64 p (hashSet 64 h))) : ℝ) = raw at *
  generalize |harmRatio p n h - 1| = d at *
  generalize 1 / harmRatio p n h = x at *
  generalize (alphaQ p : ℝ) * 2 ^ p = A at *
  generalize 1 / (2 : ℝ) ^ p = w at *
  generalize moment 64 p n (1 / 2) = M at *
  generalize E ((n : ℝ) / 2 ^ p) = e at *
  obtain ⟨h3, h4⟩ := abs_le.1 hr
  have r1 : 1 ≤ e / M := by rw [le_div_iff₀ hM]; linarith
  have r2 : (1 - 1.5 * w) * (e / M) ≤ 1 := by
    rw [← mul_div_assoc, div_le_one hM]; exact h1
  have c1 : x * (1 - 1 / 2 ^ 32) * A * (e / M) ≤ raw * e := by
    have : A / M * x * (1 - 1 / 2 ^ 32) ≤ raw := by linarith
    calc _ = A / M * x * (1 - 1 / 2 ^ 32) * e := by ring
      _ ≤ raw * e := mul_le_mul_of_nonneg_right this hE.le
  have c2 : raw * e ≤ x * (1 + 1 / 2 ^ 32) * A * (e / M) := by
    have : raw ≤ A / M * x * (1 + 1 / 2 ^ 32) := by linarith
    calc raw * e ≤ A / M * x * (1 + 1 / 2 ^ 32) * e := mul_le_mul_of_nonneg_right this hE.le
      _ = _ := by ring
  constructor
  · refine le_trans ?_ c1
    have h5 : (1 - (2.014 * d + 1.7 * w)) * A ≤ x * (1 - 1 / 2 ^ 32) * A := by
      refine mul_le_mul_of_nonneg_right ?_ hA.le
      norm_num at *; linarith
    have h6 : 0 ≤ x * (1 - 1 / 2 ^ 32) * A := mul_nonneg (mul_nonneg hx0.le (by norm_num)) hA.le
    nlinarith
  · refine c2.trans ?_
    have h5 : x * (1 + 1 / 2 ^ 32) ≤ (1 + (2.014 * d + 1.7 * w)) * (1 - 1.5 * w) := by
      have hdw : d * w ≤ d * (1 / 256) := by gcongr
      have hww : w * w ≤ 1 / 256 * w := by
        refine mul_le_mul_of_nonneg_right hw ?_
        norm_num at hw0; linarith
      norm_num at *; nlinarith
    have h6 : 0 ≤ e / M := by linarith
    have hk : 0 ≤ 1 + (2.014 * d + 1.7 * w) := by norm_num at *; linarith
    calc x * (1 + 1 / 2 ^ 32) * A * (e / M) ≤
          (1 + (2.014 * d + 1.7 * w)) * (1 - 1.5 * w) * A * (e / M) := by gcongr
      _ = (1 + (2.014 * d + 1.7 * w)) * A * ((1 - 1.5 * w) * (e / M)) := by ring
      _ ≤ (1 + (2.014 * d + 1.7 * w)) * A * 1 :=
          mul_le_mul_of_nonneg_left r2 (mul_nonneg hk hA.le)
      _ = _ := mul_one _

/-! ## Up to `6 m` values -/

/-- The squared deviations, weighted so that their sum bounds the square of the error. -/
noncomputable def anyDevs (p n : Nat) (h : Fin n → Fin (2 ^ 64)) : ℝ :=
  4.48 * harmDev p n h ^ 2 +
    if n ≤ 2 * 2 ^ p then 3.32 * zerosDev p n h ^ 2 + 1.11 * prefixDev p n h ^ 2 else
    if n ≤ 6 * 2 ^ p then (if n ≤ 3 * 2 ^ p then 26.4 else 13.8) *
      (((zeros 64 p (hashSet 64 h) : ℝ) - 2 ^ p * (1 - 1 / 2 ^ p) ^ n) / 2 ^ p) ^ 2 +
        3.02 * prefixDev p n h ^ 2 else 0

theorem anyDevs_nonneg (h : Fin n → Fin (2 ^ 64)) : 0 ≤ anyDevs p n h := by
  unfold anyDevs
  split_ifs <;> positivity

theorem anyDevs_harm (h : Fin n → Fin (2 ^ 64)) : 2.1147 * |harmDev p n h| ≤ √(anyDevs p n h) := by
  refine Real.le_sqrt_of_sq_le ?_
  rw [mul_pow, sq_abs]
  have h1 : (2.1147 : ℝ) ^ 2 * harmDev p n h ^ 2 ≤ 4.48 * harmDev p n h ^ 2 := by gcongr; norm_num
  refine h1.trans (le_add_of_nonneg_right ?_)
  split_ifs <;> positivity

theorem anyDevs_low (hn : n ≤ 2 * 2 ^ p) (h : Fin n → Fin (2 ^ 64)) :
    1.8152 * |zerosDev p n h| ≤ √(anyDevs p n h) ∧ 1.05 * |prefixDev p n h| ≤ √(anyDevs p n h) := by
  constructor
  · refine Real.le_sqrt_of_sq_le ?_
    rw [mul_pow, sq_abs, anyDevs, if_pos hn]
    have h1 : (1.8152 : ℝ) ^ 2 * zerosDev p n h ^ 2 ≤ 3.32 * zerosDev p n h ^ 2 := by gcongr; norm_num
    have h2 : 0 ≤ 4.48 * harmDev p n h ^ 2 := by positivity
    have h3 : 0 ≤ 1.11 * prefixDev p n h ^ 2 := by positivity
    linarith
  · refine Real.le_sqrt_of_sq_le ?_
    rw [mul_pow, sq_abs, anyDevs, if_pos hn]
    have h1 : (1.05 : ℝ) ^ 2 * prefixDev p n h ^ 2 ≤ 1.11 * prefixDev p n h ^ 2 := by gcongr; norm_num
    have h2 : 0 ≤ 4.48 * harmDev p n h ^ 2 := by positivity
    have h3 : 0 ≤ 3.32 * zerosDev p n h ^ 2 := by positivity
    linarith

theorem anyDevs_mid (hn2 : ¬ n ≤ 2 * 2 ^ p) (hn6 : n ≤ 6 * 2 ^ p) (h : Fin n → Fin (2 ^ 64)) :
    (if n ≤ 3 * 2 ^ p then 5.138 else 3.714) *
      |((zeros 64 p (hashSet 64 h) : ℝ) - 2 ^ p * (1 - 1 / 2 ^ p) ^ n) / 2 ^ p| ≤ √(anyDevs p n h) ∧
    1.735 * |prefixDev p n h| ≤ √(anyDevs p n h) := by
  have h2 : 0 ≤ 4.48 * harmDev p n h ^ 2 := by positivity
  constructor
  · refine Real.le_sqrt_of_sq_le ?_
    rw [mul_pow, sq_abs, anyDevs, if_neg hn2, if_pos hn6]
    have h3 : 0 ≤ 3.02 * prefixDev p n h ^ 2 := by positivity
    have h4 := sq_nonneg (((zeros 64 p (hashSet 64 h) : ℝ) - 2 ^ p * (1 - 1 / 2 ^ p) ^ n) / 2 ^ p)
    generalize (((zeros 64 p (hashSet 64 h) : ℝ) - 2 ^ p * (1 - 1 / 2 ^ p) ^ n) / 2 ^ p) ^ 2 = x at *
    have h1 : (if n ≤ 3 * 2 ^ p then (5.138 : ℝ) else 3.714) ^ 2 * x ≤
        (if n ≤ 3 * 2 ^ p then (26.4 : ℝ) else 13.8) * x := by
      refine mul_le_mul_of_nonneg_right ?_ h4
      split <;> norm_num
    linarith
  · refine Real.le_sqrt_of_sq_le ?_
    rw [mul_pow, sq_abs, anyDevs, if_neg hn2, if_pos hn6]
    have h1 : (1.735 : ℝ) ^ 2 * prefixDev p n h ^ 2 ≤ 3.02 * prefixDev p n h ^ 2 := by gcongr; norm_num
    have h3 : 0 ≤ (if n ≤ 3 * 2 ^ p then (26.4 : ℝ) else 13.8) *
        (((zeros 64 p (hashSet 64 h) : ℝ) - 2 ^ p * (1 - 1 / 2 ^ p) ^ n) / 2 ^ p) ^ 2 := by
      split <;> positivity
    linarith

/-- The mean number of empty registers, relative to all registers. -/
theorem empty_le (k : ℝ) (hn : k * 2 ^ p ≤ n) : (1 - 1 / (2 : ℝ) ^ p) ^ n ≤ Real.exp (-k) := by
  have h1 : 1 / (2 : ℝ) ^ p ≤ 1 := by
    rw [div_le_one (by positivity)]; exact one_le_pow₀ (by norm_num)
  refine (pow_le_exp h1 n).trans (Real.exp_le_exp.2 (neg_le_neg ?_))
  rw [mul_one_div, le_div_iff₀ (by positivity)]
  exact hn

theorem exp_two_three : Real.exp (-2) ≤ 0.13534 ∧ Real.exp (-3) ≤ 0.0498 := by
  have h := Real.exp_neg_one_lt_d9
  have h0 := Real.exp_pos (-1)
  have h1 : Real.exp (-1) ≤ 0.36788 := by norm_num at h ⊢; linarith
  constructor
  · rw [show (-2 : ℝ) = (2 : ℕ) * -1 by norm_num, Real.exp_nat_mul]
    exact (pow_le_pow_left₀ h0.le h1 2).trans (by norm_num)
  · rw [show (-3 : ℝ) = (3 : ℕ) * -1 by norm_num, Real.exp_nat_mul]
    exact (pow_le_pow_left₀ h0.le h1 3).trans (by norm_num)

/-- The error for up to `6 m` values. -/
theorem near_any_low (hln : LnSpec ln) (v : Search) (hp1 : 8 ≤ p) (hp2 : p ≤ 18) (hn : n ≤ 6 * 2 ^ p)
    {h : Fin n → Fin (2 ^ 64)} {y : ℚ} (hy : plusCount ln (Plus.biasOf v) p (hashSet 64 h) = fin y)
    (hz : 1 / 2 < harmRatio p n h) :
    |(y : ℝ) - n| ≤ (√(anyDevs p n h) + (0.005 + 4 / 2 ^ p)) * (n + 1.6 * 2 ^ p) := by
  have hm := m_ge hp1
  have hm2 := m_le hp2
  have hN : (0 : ℝ) < n + 1.6 * 2 ^ p := by positivity
  have hn0 : (0 : ℝ) ≤ n := Nat.cast_nonneg n
  have hn6 : (n : ℝ) ≤ 6 * 2 ^ p := by exact_mod_cast hn
  have hw : 0 ≤ 4 / (2 : ℝ) ^ p := by positivity
  have hb : 0 ≤ (0.005 + 4 / (2 : ℝ) ^ p) * (n + 1.6 * 2 ^ p) := by positivity
  have hy0 : (0 : ℝ) ≤ y := by
    obtain ⟨Y, k1, k2, -⟩ := plusCount_range hln v (p := p) (by omega) hp2 (S := hashSet 64 h)
    rw [fin.inj (hy.symm.trans k1)]
    exact_mod_cast k2
  have enough : ∀ T : ℝ, T ≤ √(anyDevs p n h) → |(y : ℝ) - n| ≤ T * (n + 1.6 * 2 ^ p) →
      |(y : ℝ) - n| ≤ (√(anyDevs p n h) + (0.005 + 4 / 2 ^ p)) * (n + 1.6 * 2 ^ p) := by
    intro T h1 h2
    have := mul_le_mul_of_nonneg_right h1 hN.le
    rw [add_mul]
    linarith
  have whole : ∀ t : ℝ, 1.05 * t ≤ √(anyDevs p n h) → |(y : ℝ) - n| ≤ wholeErr p t * (n + 1.6 * 2 ^ p) →
      |(y : ℝ) - n| ≤ (√(anyDevs p n h) + (0.005 + 4 / 2 ^ p)) * (n + 1.6 * 2 ^ p) := by
    intro t h1 h2
    refine h2.trans (mul_le_mul_of_nonneg_right ?_ hN.le)
    unfold wholeErr
    linarith
  have hharm : 1.05 * (2.014 * |harmDev p n h|) ≤ √(anyDevs p n h) := by
    refine le_trans (le_of_eq ?_) (anyDevs_harm h)
    ring
  obtain ⟨r1, r2⟩ := raw_any hp1 hp2 hn h hz
  rcases plusRegime_cases v ln (by omega : 4 ≤ p) hp2 (hashSet 64 h) with
    ⟨_, a2, a3⟩ | ⟨_, a2, a3, a4, a5⟩ | ⟨_, a3, ⟨_, a4, a5⟩ | ⟨_, a4, a5⟩⟩
  · -- the sparse representation
    have hC : (codes p (hashSet 64 h)).card ≤ capacity p := (card_le_encSize _).trans a2
    by_cases hn2 : n ≤ 2 * 2 ^ p
    · obtain ⟨Y, h1, h2⟩ := sparse_whole hln hp2 (δ := |prefixDev p n h|) (abs_nonneg _) hn2
        (card_codes_le p h) hC prefixes_le_codes (by
          unfold prefixDev
          rw [abs_div, abs_of_pos hN, div_mul_cancel₀ _ hN.ne'])
      rw [fin.inj (hy.symm.trans (a3.trans h1))] at *
      exact whole _ (anyDevs_low hn2 h).2 h2
    · refine enough _ (anyDevs_mid hn2 hn h).2 ?_
      obtain ⟨Y, h1, -, h2⟩ := sparse_value hln hp2 hC
      rw [fin.inj (hy.symm.trans (a3.trans h1))] at *
      have hC5 : 5 * ((codes p (hashSet 64 h)).card : ℝ) ≤ 4 * 2 ^ p := by
        have : 5 * (codes p (hashSet 64 h)).card ≤ 4 * 2 ^ p := by unfold capacity at hC; omega
        exact_mod_cast this
      have hn2' : 2 * (2 : ℝ) ^ p < n := by exact_mod_cast not_le.1 hn2
      have hpre : (2 : ℝ) ^ 25 ≤ zeros 64 25 (hashSet 64 h) + (codes p (hashSet 64 h)).card := by
        exact_mod_cast prefixes_le_codes (p := p) (S := hashSet 64 h)
      unfold prefixDev
      rw [abs_div, abs_of_pos hN, mul_assoc, div_mul_cancel₀ _ hN.ne']
      have hq := pow_le_quad (x := 1 / 2 ^ 25) (by norm_num) (by norm_num) n
      have habs := le_abs_self ((zeros 64 25 (hashSet 64 h) : ℝ) - 2 ^ 25 * (1 - 1 / 2 ^ 25) ^ n)
      generalize |(zeros 64 25 (hashSet 64 h) : ℝ) - 2 ^ 25 * (1 - 1 / 2 ^ 25) ^ n| = d at *
      generalize (1 - 1 / 2 ^ 25 : ℝ) ^ n = q at *
      generalize ((codes p (hashSet 64 h)).card : ℝ) = C at *
      generalize (zeros 64 25 (hashSet 64 h) : ℝ) = Z at *
      generalize (2 : ℝ) ^ p = m at *
      have hnn : (n : ℝ) * n ≤ n * (6 * 2 ^ 18) := by
        refine mul_le_mul_of_nonneg_left ?_ hn0
        linarith
      rw [abs_of_nonpos (by norm_num at h2; linarith)]
      norm_num at hq hnn habs hpre ⊢
      nlinarith
  · -- linear counting
    have hVm := zeros_le 64 p (hashSet 64 h)
    rw [count_zero_regs] at a3 a4 a5
    have hV := linear_low hln hp1 hp2 a3 hVm a4
    by_cases hn2 : n ≤ 2 * 2 ^ p
    · obtain ⟨Y, h1, h2⟩ := linear_point (n := n) hln hp1 hp2 hVm hV
      rw [fin.inj (hy.symm.trans (a5.trans h1))] at *
      refine h2.trans ?_
      rw [add_mul]
      refine add_le_add ?_ ?_
      · refine le_trans ?_ (mul_le_mul_of_nonneg_right (anyDevs_low hn2 h).1 hN.le)
        rw [mul_assoc]
        refine mul_le_mul_of_nonneg_left ?_ (by norm_num)
        unfold zerosDev zunit zdev
        have hq := q_pos (p := p) (n := n) hp1
        have hs : 0 < (n : ℝ) / 2 ^ p + 1.6 := by positivity
        have e : (n : ℝ) + 1.6 * 2 ^ p = (n / 2 ^ p + 1.6) * 2 ^ p := by field_simp
        have hμ : (0 : ℝ) < 2 ^ p * (1 - 1 / 2 ^ p) ^ n := by positivity
        rw [e]
        generalize (2 : ℝ) ^ p * (1 - 1 / 2 ^ p) ^ n = μ at *
        generalize (n : ℝ) / 2 ^ p + 1.6 = s at *
        generalize (zeros 64 p (hashSet 64 h) : ℝ) - μ = x at *
        have e2 : 1 / 10 * x / (1 / 10 * s / (1 + 1 / 10 * s) * μ) = x * ((1 + 1 / 10 * s) / (s * μ)) := by
          field_simp
        rw [e2, abs_mul, abs_of_pos (by positivity : 0 < (1 + 1 / 10 * s) / (s * μ))]
        have e3 : |x| * ((1 + 1 / 10 * s) / (s * μ)) * (s * 2 ^ p) = (1 + 1 / 10 * s) * (2 ^ p * (|x| / μ)) := by
          field_simp
        rw [e3]
        refine le_mul_of_one_le_left (by positivity) ?_
        linarith
      · refine mul_le_mul_of_nonneg_right ?_ hN.le
        have : 1.02 / (2 : ℝ) ^ p ≤ 4 / 2 ^ p := by gcongr; norm_num
        norm_num at this ⊢; linarith
    · refine enough _ (anyDevs_mid hn2 hn h).1 ?_
      have hn2' : 2 * (2 : ℝ) ^ p < n := by exact_mod_cast not_le.1 hn2
      have hle : (y : ℝ) ≤ n := by
        rw [← a5, hy, num, le_fin] at a4
        have a4' : (y : ℝ) ≤ threshold p := by exact_mod_cast a4
        have := threshold_le_mul' hp1 hp2
        norm_num at this; linarith
      rw [abs_of_nonpos (by linarith), neg_sub]
      have hdev : ∀ q : ℝ, (1 - 1 / (2 : ℝ) ^ p) ^ n ≤ q → 0.2625 - q ≤
          |((zeros 64 p (hashSet 64 h) : ℝ) - 2 ^ p * (1 - 1 / 2 ^ p) ^ n) / 2 ^ p| := by
        intro q hq
        refine le_trans ?_ (le_abs_self _)
        rw [le_div_iff₀ (by positivity)]
        have := mul_le_mul_of_nonneg_left hq (by positivity : (0 : ℝ) ≤ 2 ^ p)
        linarith
      by_cases hn3 : n ≤ 3 * 2 ^ p
      · have hn3' : (n : ℝ) ≤ 3 * 2 ^ p := by exact_mod_cast hn3
        have hd := hdev _ ((empty_le (p := p) (n := n) 2 hn2'.le).trans exp_two_three.1)
        rw [if_pos hn3]
        have h1 : 0.6523 * ((n : ℝ) + 1.6 * 2 ^ p) ≤ 5.138 *
            |((zeros 64 p (hashSet 64 h) : ℝ) - 2 ^ p * (1 - 1 / 2 ^ p) ^ n) / 2 ^ p| * (n + 1.6 * 2 ^ p) := by
          refine mul_le_mul_of_nonneg_right ?_ hN.le
          norm_num at hd ⊢; linarith
        norm_num at h1 ⊢; linarith
      · have hn3' : 3 * (2 : ℝ) ^ p < n := by exact_mod_cast not_le.1 hn3
        have hd := hdev _ ((empty_le (p := p) (n := n) 3 hn3'.le).trans exp_two_three.2)
        rw [if_neg hn3]
        have h1 : 0.7896 * ((n : ℝ) + 1.6 * 2 ^ p) ≤ 3.714 *
            |((zeros 64 p (hashSet 64 h) : ℝ) - 2 ^ p * (1 - 1 / 2 ^ p) ^ n) / 2 ^ p| * (n + 1.6 * 2 ^ p) := by
          refine mul_le_mul_of_nonneg_right ?_ hN.le
          norm_num at hd ⊢; linarith
        norm_num at h1 ⊢; linarith
  · have hM : Regs p (regs 64 p (hashSet 64 h)) := regs_regs _ (by omega)
    obtain ⟨β, c1, c2, -⟩ := Plus.corrected_eq (v := v) (by omega) hp2 (rnd_rnd _)
      (hM.raw_bounds (by omega) hp2).1 a4
    have h5 := (Rat.cast_le (K := ℝ)).2 a4
    push_cast at h5
    have key := corrected_whole hp1 hp2 hn (by positivity) c1 (not_linear hln hp1 hp2 hM a3)
      (hM.raw_bounds (by omega) hp2).1 r1 r2 a4
    rw [← fin.inj (hy.symm.trans (a5.trans c2))] at key
    exact whole _ hharm key
  · have h6 := (Rat.cast_lt (K := ℝ)).2 a4
    push_cast at h6
    have key := high_whole hp1 hp2 hn (by positivity) r1 r2 h6
    rw [← fin.inj (hy.symm.trans a5)] at key
    exact whole _ hharm key

/-! ## More than `6 m` values -/

/-- The harmonic sum when more than a fifth of the registers are empty. -/
theorem ratio_ge_zeros (hp1 : 8 ≤ p) (hp2 : p ≤ 18) (hn : 6 * 2 ^ p < n)
    (hc : 0.995 * (n : ℝ) ≤ centre 64 p n) {h : Fin n → Fin (2 ^ 64)}
    (hz : 2 ^ p ≤ 5 * zeros 64 p (hashSet 64 h)) : 1.65 ≤ harmRatio p n h := by
  have hm := m_ge hp1
  have hM := moment_half_pos (w := 64) (p := p) (n := n)
  have hn' : 6 * (2 : ℝ) ^ p ≤ n := by exact_mod_cast hn.le
  obtain ⟨-, a2⟩ := alpha_near (p := p) (by omega) hp2
  have hw2 : 0 ≤ 1.06 / (2 : ℝ) ^ p := by positivity
  have hα : (alphaQ p : ℝ) ≤ 0.7213 := by
    generalize 1.06 / (2 : ℝ) ^ p = ω at *
    norm_num at a2 ⊢; linarith
  have hm0 : (0 : ℝ) < 2 ^ p := by positivity
  unfold centre at hc
  rw [le_div_iff₀ hM] at hc
  have h1 : moment 64 p n (1 / 2) ≤ 0.1209 := by
    have h2 : 0.995 * (6 * 2 ^ p) * moment 64 p n (1 / 2) ≤ 0.7213 * 2 ^ p :=
      le_trans (by gcongr) (hc.trans (by gcongr))
    have h3 : 5.97 * moment 64 p n (1 / 2) ≤ 0.7213 := by
      refine le_of_mul_le_mul_right ?_ hm0
      linarith
    norm_num at h3 ⊢; linarith
  have h4 : (2 : ℝ) ^ p ≤ 5 * zeros 64 p (hashSet 64 h) := by exact_mod_cast hz
  have h5 := zeros_le_harm (w := 64) (p := p) h
  unfold harmRatio
  rw [le_div_iff₀ (by positivity)]
  have h6 : 2 ^ p * moment 64 p n (1 / 2) ≤ 2 ^ p * 0.1209 := by gcongr
  norm_num only at h6 ⊢
  linarith

/-- The error for more than `6 m` values. -/
theorem near_any_high (hln : LnSpec ln) (v : Search) (hp1 : 8 ≤ p) (hp2 : p ≤ 18) (hn6 : 6 * 2 ^ p < n)
    (hn : n ≤ 2 ^ 59) {h : Fin n → Fin (2 ^ 64)} {y : ℚ}
    (hy : plusCount ln (Plus.biasOf v) p (hashSet 64 h) = fin y) (hz : 1 / 2 < harmRatio p n h) :
    |(y : ℝ) - n| ≤ (2.1147 * |harmDev p n h| + (0.005 + 4 / 2 ^ p)) * (n + 1.6 * 2 ^ p) := by
  have hm := m_ge hp1
  have hm2 := m_le hp2
  have hm0 : (0 : ℝ) < 2 ^ p := by positivity
  have hn' : 6 * (2 : ℝ) ^ p + 1 ≤ n := by exact_mod_cast hn6
  have hn0 : (0 : ℝ) ≤ n := Nat.cast_nonneg n
  obtain ⟨c1, c2, -⟩ := centre_near (w := 64) (n := n) (p := p) (by omega) hp2 (by omega) (by omega)
    (by norm_num at hn ⊢; omega)
  have hw1 : 1.1 / (2 : ℝ) ^ p ≤ 1.1 / 256 := by gcongr
  have hw0 : 0 ≤ 4 / (2 : ℝ) ^ p := by positivity
  have hw3 : 1.1 / (2 : ℝ) ^ p ≤ 4 / 2 ^ p := by gcongr; norm_num
  have c3 : 0.995 * (n : ℝ) ≤ centre 64 p n := by
    refine le_trans (mul_le_mul_of_nonneg_right ?_ hn0) c1
    norm_num at hw1 ⊢; linarith
  have hzf : ¬ (fitsSparse p (hashSet 64 h) ∨ ((regs 64 p (hashSet 64 h)).count 0 ≠ 0 ∧
      le (linear ln (2 ^ p) ((regs 64 p (hashSet 64 h)).count 0)) (num (threshold p)) = true)) ∨
      1.65 ≤ harmRatio p n h := by
    by_cases hf : 5 * zeros 64 p (hashSet 64 h) < 2 ^ p
    · have := few_zeros hln (by omega) hp2 (hashSet_lt h) hf
      exact Or.inl (not_or.2 this)
    · exact Or.inr (ratio_ge_zeros hp1 hp2 hn6 c3 (not_lt.1 hf))
  have hr := raw_ratio (w := 64) (n := n) (p := p) (by omega) hp2 (by omega) h
  change |_ - centre 64 p n * (1 / harmRatio p n h)| ≤ centre 64 p n * (1 / harmRatio p n h) / 2 ^ 32 at hr
  obtain ⟨Y, k1, k2, -, k3⟩ := plusCount_range hln v (p := p) (by omega) hp2 (S := hashSet 64 h)
  rw [← fin.inj (hy.symm.trans k1)] at k2 k3
  have hy0 : (0 : ℝ) ≤ y := by exact_mod_cast k2
  rw [harmDev_eq]
  have hz0 : 0 < harmRatio p n h := by linarith
  have hi := inv_ratio hz
  have hx2 : 1 / harmRatio p n h ≤ 2 := by rw [div_le_iff₀ hz0]; linarith
  have hb : 0 ≤ (0.005 + 4 / (2 : ℝ) ^ p) * (n + 1.6 * 2 ^ p) := by positivity
  have hC0 : 0 < centre 64 p n := centre_pos (by omega) hp2
  obtain ⟨r1, r2⟩ := abs_le.1 hr
  have big : 1.65 ≤ harmRatio p n h →
      |(y : ℝ) - n| ≤ (2.1147 * |harmRatio p n h - 1| + (0.005 + 4 / 2 ^ p)) * (n + 1.6 * 2 ^ p) := by
    intro h65
    have hx : 1 / harmRatio p n h ≤ 0.607 := by
      rw [div_le_iff₀ hz0]; norm_num at h65 ⊢; linarith
    have hd : 1 ≤ 2.1147 * |harmRatio p n h - 1| := by
      rw [abs_of_nonneg (by norm_num at h65; linarith)]
      norm_num at h65 ⊢; linarith
    have hCx : centre 64 p n * (1 / harmRatio p n h) ≤ 1.0006 * n * 0.607 :=
      mul_le_mul c2 hx (by positivity) (by positivity)
    have hle : |(y : ℝ) - n| ≤ n := by
      rw [abs_le]
      refine ⟨by linarith, ?_⟩
      rcases k3 with k3 | k3
      · have k3' := (Rat.cast_le (K := ℝ)).2 k3
        push_cast at k3'
        linarith
      · rw [k3]
        generalize centre 64 p n * (1 / harmRatio p n h) = t at *
        norm_num at hCx r2 ⊢; linarith
    rw [add_mul]
    have := mul_le_mul_of_nonneg_right hd (by positivity : (0 : ℝ) ≤ n + 1.6 * 2 ^ p)
    norm_num at this ⊢
    norm_num at hb
    linarith
  rcases plusRegime_cases v ln (by omega : 4 ≤ p) hp2 (hashSet 64 h) with
    ⟨_, a2, a3⟩ | ⟨_, a2, a3, a4, a5⟩ | ⟨_, a3, ⟨_, a4, a5⟩ | ⟨_, a4, a5⟩⟩
  · exact big (hzf.resolve_left fun h1 => h1 (Or.inl a2))
  · exact big (hzf.resolve_left fun h1 => h1 (Or.inr ⟨a3, a4⟩))
  · -- the tables: the raw estimate is at most `5 m`, far below its centre
    have hM : Regs p (regs 64 p (hashSet 64 h)) := regs_regs _ (by omega)
    obtain ⟨e1, -⟩ := hM.raw_bounds (by omega) hp2
    obtain ⟨β, b1, b2, -⟩ := Plus.corrected_eq (v := v) (by omega) hp2 (rnd_rnd _) e1 a4
    have hyβ := fin.inj (hy.symm.trans (a5.trans b2))
    have b3 := (Rat.cast_le (K := ℝ)).2 (b1.abs_le (by omega) hp2)
    have b4 := (Rat.cast_le (K := ℝ)).2 (rnd_err' (rawQ p (hsum 0 (regs 64 p (hashSet 64 h))) - β))
    change y = rnd (rawQ p (hsum 0 (regs 64 p (hashSet 64 h))) - β) at hyβ
    have h5 := (Rat.cast_le (K := ℝ)).2 a4
    have e1' := (Rat.cast_le (K := ℝ)).2 e1
    rw [← hyβ] at b4
    push_cast at b3 b4 h5 e1'
    have hα := alpha_ge hp1 hp2
    have hup : (y : ℝ) ≤ n + 2 := by
      rcases k3 with k3 | k3
      · have k3' := (Rat.cast_le (K := ℝ)).2 k3
        push_cast at k3'
        linarith
      · rw [k3]; linarith
    generalize (rawQ p (hsum 0 (regs 64 p (hashSet 64 h))) : ℝ) = raw at *
    have hraw0 : 0 < raw := by
      have : (0.7182 : ℝ) * 256 ≤ alphaQ p * 2 ^ p := mul_le_mul hα hm (by norm_num) (by linarith)
      norm_num at e1' this; linarith
    have hzr : 0.9949 * (n : ℝ) ≤ raw * harmRatio p n h := by
      have h1 : centre 64 p n * (1 / harmRatio p n h) * (1 - 1 / 2 ^ 32) ≤ raw := by linarith
      have h2 := mul_le_mul_of_nonneg_right h1 hz0.le
      have h3 : centre 64 p n * (1 / harmRatio p n h) * (1 - 1 / 2 ^ 32) * harmRatio p n h =
          centre 64 p n * (1 - 1 / 2 ^ 32) := by field_simp
      rw [h3] at h2
      norm_num at h2 c3 ⊢
      linarith
    have hlow : raw - 2 ^ p - 3 ≤ (y : ℝ) := by
      have g1 := abs_le.1 b3
      have g2 : |raw - (β : ℝ)| ≤ 2 ^ 30 := by
        rw [abs_le]
        norm_num at hm2 ⊢
        constructor <;> linarith
      have g3 := (abs_le.1 b4).1
      norm_num at g2 g3
      linarith
    have hz1 : 1.19 ≤ harmRatio p n h := by
      have : 0.9949 * (6 * 2 ^ p) ≤ 5 * 2 ^ p * harmRatio p n h :=
        le_trans (by norm_num; linarith) (hzr.trans (mul_le_mul_of_nonneg_right h5 hz0.le))
      have h2 : 0.9949 * 6 ≤ 5 * harmRatio p n h := by
        refine le_of_mul_le_mul_right ?_ hm0
        linarith
      norm_num at h2 ⊢; linarith
    rw [add_mul, abs_of_nonneg (by norm_num at hz1; linarith : 0 ≤ harmRatio p n h - 1)]
    have hkey : 3.2143 * (0.9949 * n - raw) ≤ 2.1147 * (harmRatio p n h - 1) * (n + 1.6 * 2 ^ p) := by
      have h1 : 1.52 * raw ≤ n + 1.6 * 2 ^ p := by norm_num; linarith
      have h2 : 0 ≤ harmRatio p n h - 1 := by norm_num at hz1; linarith
      calc 3.2143 * (0.9949 * n - raw) ≤ 2.1147 * (harmRatio p n h - 1) * (1.52 * raw) := by
            norm_num at hzr ⊢
            nlinarith
        _ ≤ _ := mul_le_mul_of_nonneg_left h1 (by norm_num at h2 ⊢; linarith)
    rw [abs_le]
    generalize 2.1147 * (harmRatio p n h - 1) * ((n : ℝ) + 1.6 * 2 ^ p) = K at *
    generalize (0.005 + 4 / (2 : ℝ) ^ p) * (n + 1.6 * 2 ^ p) = B at *
    norm_num at hkey
    constructor <;> linarith
  · -- the raw estimate
    rw [fin.inj (hy.symm.trans a5)]
    have h1 : |(rawQ p (hsum 0 (regs 64 p (hashSet 64 h))) : ℝ) - n| ≤
        centre 64 p n * 2 / 2 ^ 32 + centre 64 p n * (2 * |harmRatio p n h - 1|) + (0.00065 + 1.1 / 2 ^ p) * n := by
      have e : (rawQ p (hsum 0 (regs 64 p (hashSet 64 h))) : ℝ) - n =
          (rawQ p (hsum 0 (regs 64 p (hashSet 64 h))) - centre 64 p n * (1 / harmRatio p n h)) +
          centre 64 p n * (1 / harmRatio p n h - 1) + (centre 64 p n - n) := by ring
      rw [e]
      refine (abs_add_le _ _).trans (add_le_add ((abs_add_le _ _).trans (add_le_add (hr.trans ?_) ?_)) ?_)
      · gcongr
      · rw [abs_mul, abs_of_pos hC0]; gcongr
      · have hx : 0 ≤ 1.1 / (2 : ℝ) ^ p * n := by positivity
        rw [abs_le]
        constructor
        · linarith
        · norm_num only at c2 hx ⊢; linarith
    refine h1.trans ?_
    have h2 : centre 64 p n * (2 * |harmRatio p n h - 1|) ≤ 2.1147 * |harmRatio p n h - 1| * (n + 1.6 * 2 ^ p) := by
      have g1 := mul_le_mul_of_nonneg_right c2 (abs_nonneg (harmRatio p n h - 1))
      have g2 : 0 ≤ |harmRatio p n h - 1| * 2 ^ p := by positivity
      have g3 : 0 ≤ |harmRatio p n h - 1| * n := by positivity
      norm_num at g1 ⊢
      linarith
    have h3 : 1.1 / 2 ^ p * (n : ℝ) ≤ 4 / 2 ^ p * (n + 1.6 * 2 ^ p) :=
      mul_le_mul hw3 (le_add_of_nonneg_right (by positivity)) hn0 hw0
    rw [add_mul (0.00065 : ℝ), add_mul (2.1147 * _), add_mul (0.005 : ℝ)]
    generalize 4 / (2 : ℝ) ^ p * (n + 1.6 * 2 ^ p) = B at *
    generalize 2.1147 * |harmRatio p n h - 1| * ((n : ℝ) + 1.6 * 2 ^ p) = K at *
    generalize centre 64 p n * (2 * |harmRatio p n h - 1|) = L at *
    norm_num at c2 h3 ⊢
    linarith

end HLL
