import Mathlib.Analysis.SpecialFunctions.Log.Basic
import Verif.Proofs.Variance
import Verif.Proofs.Collisions
import Verif.Proofs.Monotone
import Verif.Proofs.PFNum

/-!
# Accuracy of linear counting when the zero counter is near its average
-/

namespace HLL
variable {v : Search}
open Spec F64

/-- The error of linear counting when the number of zero registers differs by less than `t` from
its average `μ`: `n/(m-1)` for the bias of the formula, `m t/(μ-t)` for the deviation. -/
noncomputable def linErr (p n : Nat) (t : ℝ) : ℝ :=
  n / (2 ^ p - 1) + 2 ^ p * t / (2 ^ p * (1 - 1 / 2 ^ p) ^ n - t)

/-- `linErr` with the rounding errors of the floating point evaluation. -/
noncomputable def linErrF (p n : Nat) (t : ℝ) : ℝ :=
  linErr p n t + (n + linErr p n t + 1) / 2 ^ 33

theorem linErr_nonneg {p n : Nat} (hp1 : 1 ≤ p) {t : ℝ} (ht0 : 0 < t)
    (ht : t < 2 ^ p * (1 - 1 / 2 ^ p) ^ n) : 0 ≤ linErr p n t := by
  have hm : (2 : ℝ) ≤ 2 ^ p := by
    calc (2 : ℝ) = 2 ^ 1 := by norm_num
      _ ≤ 2 ^ p := pow_le_pow_right₀ (by norm_num) hp1
  unfold linErr
  have h1 : (0 : ℝ) < 2 ^ p - 1 := by linarith
  have h2 : (0 : ℝ) < 2 ^ p * (1 - 1 / 2 ^ p) ^ n - t := by linarith
  have h3 : (0 : ℝ) ≤ n := Nat.cast_nonneg _
  positivity

/-- Linear counting in exact arithmetic. -/
theorem linear_exact {p n Z : Nat} (hp1 : 1 ≤ p) {t : ℝ} (ht0 : 0 < t)
    (ht : t < 2 ^ p * (1 - 1 / 2 ^ p) ^ n)
    (hZ : |(Z : ℝ) - 2 ^ p * (1 - 1 / 2 ^ p) ^ n| < t) :
    |(2 : ℝ) ^ p * Real.log (2 ^ p / Z) - n| ≤ linErr p n t := by
  have hm : (2 : ℝ) ≤ 2 ^ p := by
    calc (2 : ℝ) = 2 ^ 1 := by norm_num
      _ ≤ 2 ^ p := pow_le_pow_right₀ (by norm_num) hp1
  unfold linErr
  generalize (2 : ℝ) ^ p = m at *
  have hm0 : (0 : ℝ) < m := by linarith
  have hq0 : (0 : ℝ) < 1 - 1 / m := by
    rw [sub_pos, div_lt_one hm0]; linarith
  have hμ0 : 0 < m * (1 - 1 / m) ^ n := by positivity
  have hlogμ : Real.log (m / (m * (1 - 1 / m) ^ n)) = n * -Real.log (1 - 1 / m) := by
    rw [show m / (m * (1 - 1 / m) ^ n) = ((1 - 1 / m) ^ n)⁻¹ by field_simp, Real.log_inv,
      Real.log_pow]
    ring
  have hl1 : 1 / m ≤ -Real.log (1 - 1 / m) := by
    have := Real.log_le_sub_one_of_pos hq0
    linarith
  have hl2 : -Real.log (1 - 1 / m) ≤ 1 / (m - 1) := by
    rw [← Real.log_inv]
    have := Real.log_le_sub_one_of_pos (inv_pos.2 hq0)
    refine this.trans (le_of_eq ?_)
    have : m - 1 ≠ 0 := by linarith
    field_simp
    ring
  have hn0 : (0 : ℝ) ≤ n := Nat.cast_nonneg _
  have hA1 : (n : ℝ) ≤ m * Real.log (m / (m * (1 - 1 / m) ^ n)) := by
    rw [hlogμ]
    calc (n : ℝ) = m * (n * (1 / m)) := by field_simp
      _ ≤ _ := by gcongr
  have hA2 : m * Real.log (m / (m * (1 - 1 / m) ^ n)) ≤ n + n / (m - 1) := by
    rw [hlogμ]
    have h1 : m - 1 ≠ 0 := by linarith
    calc m * (n * -Real.log (1 - 1 / m)) ≤ m * (n * (1 / (m - 1))) := by gcongr
      _ = _ := by field_simp; ring
  generalize m * (1 - 1 / m) ^ n = μ at *
  obtain ⟨h1, h2⟩ := abs_lt.1 hZ
  have hZ0 : (0 : ℝ) < Z := by linarith
  have hd : 0 < μ - t := by linarith
  have hsplit : Real.log (m / Z) = Real.log (m / μ) + Real.log (μ / Z) := by
    rw [← Real.log_mul (by positivity) (by positivity)]
    congr 1; field_simp
  have hB1 : Real.log (μ / Z) ≤ t / (μ - t) := by
    refine (Real.log_le_sub_one_of_pos (by positivity)).trans ?_
    rw [div_sub_one hZ0.ne', div_le_div_iff₀ hZ0 hd]
    nlinarith
  have hB2 : -(t / (μ - t)) ≤ Real.log (μ / Z) := by
    have h3 : Real.log (Z / μ) ≤ Z / μ - 1 := Real.log_le_sub_one_of_pos (by positivity)
    have h4 : Real.log (μ / Z) = -Real.log (Z / μ) := by rw [← Real.log_inv, inv_div]
    have h5 : (Z : ℝ) / μ - 1 ≤ t / (μ - t) := by
      rw [div_sub_one hμ0.ne', div_le_div_iff₀ hμ0 hd]
      nlinarith
    rw [h4]; linarith
  have hC1 : m * Real.log (μ / Z) ≤ m * t / (μ - t) := by
    rw [mul_div_assoc]; gcongr
  have hC2 : -(m * t / (μ - t)) ≤ m * Real.log (μ / Z) := by
    rw [mul_div_assoc, ← mul_neg]; gcongr
  have hn1 : 0 ≤ (n : ℝ) / (m - 1) := div_nonneg hn0 (by linarith)
  rw [hsplit, mul_add, abs_le]
  constructor <;> linarith

/-- Linear counting as it is computed. -/
theorem linear_computed {ln : F64 → F64} (hln : LnSpec ln) {p n Z : Nat} (hp1 : 1 ≤ p)
    (hp2 : p ≤ 18) {t : ℝ} (ht0 : 0 < t) (ht : t < 2 ^ p * (1 - 1 / 2 ^ p) ^ n)
    (hZ : |(Z : ℝ) - 2 ^ p * (1 - 1 / 2 ^ p) ^ n| < t) (hZm : Z ≤ 2 ^ p) :
    0 < Z ∧ ∃ y : ℚ, linear ln (2 ^ p) Z = fin y ∧ |(y : ℝ) - n| ≤ linErrF p n t := by
  have h1 := linear_exact hp1 ht0 ht hZ
  have hE := linErr_nonneg hp1 ht0 ht
  have hZ0 : 0 < Z := by
    have : (0 : ℝ) < Z := by linarith [(abs_lt.1 hZ).1]
    exact_mod_cast this
  have h18 : 2 ^ p ≤ 2 ^ 18 := Nat.pow_le_pow_right (by norm_num) hp2
  obtain ⟨y, hy, _, hb⟩ := linear_approx hln (m := 2 ^ p) hZ0 hZm (by omega)
  refine ⟨hZ0, y, hy, ?_⟩
  have h18' : (2 : ℝ) ^ p ≤ 2 ^ 18 := pow_le_pow_right₀ (by norm_num) hp2
  push_cast at hb
  unfold linErrF
  generalize linErr p n t = E at *
  generalize (2 : ℝ) ^ p * Real.log (2 ^ p / Z) = L at *
  generalize (2 : ℝ) ^ p = m at *
  have hn0 : (0 : ℝ) ≤ n := Nat.cast_nonneg _
  obtain ⟨h2, h3⟩ := abs_le.1 h1
  obtain ⟨h4, h5⟩ := abs_le.1 hb
  norm_num at h4 h5 h18' ⊢
  rw [abs_le]
  constructor <;> linarith

/-- Sparse linear counting with `C` codes for `n` values. -/
theorem sparse_computed {ln : F64 → F64} (hln : LnSpec ln) {n C : Nat} (hC : C ≤ 2 ^ 18)
    (hCn : C ≤ n) (hn : n < 2 ^ 24) {a : ℝ} (ha : (n : ℝ) < C + a) :
    ∃ y : ℚ, linear ln (2 ^ 24) (2 ^ 24 - C) = fin y ∧
      |(y : ℝ) - n| ≤ max a (n ^ 2 / (2 ^ 24 - n)) := by
  have hn' : (n : ℝ) < 2 ^ 24 := by exact_mod_cast hn
  have hn0 : (0 : ℝ) ≤ n := Nat.cast_nonneg _
  rcases Nat.eq_zero_or_pos C with rfl | hC0
  · obtain ⟨y, hy, h0, _⟩ := linear_approx hln (m := 2 ^ 24) (V := 2 ^ 24 - 0) (by norm_num)
      (by norm_num) le_rfl
    refine ⟨y, hy, ?_⟩
    rw [h0 (by norm_num)]
    refine le_trans ?_ (le_max_left _ _)
    simp only [Nat.cast_zero, zero_add] at ha
    rw [Rat.cast_zero, zero_sub, abs_neg, abs_of_nonneg hn0]
    exact ha.le
  · obtain ⟨y, hy, h1, h2, _⟩ := sparse_bounds hln hC0 hC
    refine ⟨y, hy, ?_⟩
    have h1' : (C : ℝ) ≤ y := by
      have := (Rat.cast_le (K := ℝ)).2 h1; push_cast at this; exact this
    have h2' : (y : ℝ) ≤ C * 2 ^ 24 / (2 ^ 24 - C) := by
      have := (Rat.cast_le (K := ℝ)).2 h2; push_cast at this; exact this
    have hCn' : (C : ℝ) ≤ n := by exact_mod_cast hCn
    have h3 : (C : ℝ) * 2 ^ 24 / (2 ^ 24 - C) ≤ n * 2 ^ 24 / (2 ^ 24 - n) := by
      have : (0 : ℝ) < 2 ^ 24 - n := by linarith
      gcongr
    have h4 : (n : ℝ) * 2 ^ 24 / (2 ^ 24 - n) = n + n ^ 2 / (2 ^ 24 - n) := by
      have : (2 : ℝ) ^ 24 - n ≠ 0 := by linarith
      field_simp
      ring
    rw [abs_le]
    constructor
    · linarith [le_max_left a ((n : ℝ) ^ 2 / (2 ^ 24 - n))]
    · linarith [le_max_right a ((n : ℝ) ^ 2 / (2 ^ 24 - n))]

theorem threshold_le_350000 {p : Nat} (hp1 : 4 ≤ p) (hp2 : p ≤ 18) : threshold p ≤ 350000 := by
  interval_cases p <;> decide

/-- The estimate of HyperLogLog++ when the zero registers are near their average and not too many
codes are lost. -/
theorem plusCount_accurate {ln : F64 → F64} (hln : LnSpec ln) {p n : Nat} (hp1 : 4 ≤ p)
    (hp2 : p ≤ 18) {t a : ℝ} (ht0 : 0 < t) (ht : t < 2 ^ p * (1 - 1 / 2 ^ p) ^ n)
    (hthr : n + linErrF p n t ≤ threshold p) {S : Finset Nat} (hC : (codes p S).card ≤ n)
    (hZ : |(zeros 64 p S : ℝ) - 2 ^ p * (1 - 1 / 2 ^ p) ^ n| < t)
    (ha : (n : ℝ) < (codes p S).card + a) :
    ∃ y : ℚ, plusCount ln (Plus.biasOf v) p S = fin y ∧
      |(y : ℝ) - n| ≤ max (linErrF p n t) (max a (n ^ 2 / (2 ^ 24 - n))) := by
  have hE := linErr_nonneg (by omega) ht0 ht
  have hEF : 0 ≤ linErrF p n t := by
    have : (0 : ℝ) ≤ n := Nat.cast_nonneg _
    unfold linErrF; positivity
  have hn : n < 2 ^ 24 := by
    have h1 : (threshold p : ℝ) ≤ 350000 := by exact_mod_cast threshold_le_350000 hp1 hp2
    have h2 : (n : ℝ) ≤ 350000 := by linarith
    have h3 : n ≤ 350000 := by exact_mod_cast h2
    omega
  by_cases hf : fitsSparse p S
  · have hcard := card_le_encSize (codes p S)
    have hcap := capacity_le hp2
    have hf' := hf
    unfold fitsSparse at hf'
    obtain ⟨y, h1, h2⟩ := sparse_computed hln (C := (codes p S).card) (by omega) hC hn ha
    exact ⟨y, by rw [plusCount, if_pos hf, h1], h2.trans (le_max_right _ _)⟩
  · obtain ⟨h0, y, h1, h2⟩ := linear_computed hln (by omega) hp2 ht0 ht hZ (zeros_le _ _ _)
    refine ⟨y, ?_, h2.trans (le_max_left _ _)⟩
    have hle : y ≤ (threshold p : ℚ) := by
      have : (y : ℝ) ≤ ((threshold p : ℚ) : ℝ) := by
        push_cast
        linarith [(abs_le.1 h2).2]
      exact_mod_cast this
    rw [plusCount, if_neg hf, plusDense]
    rw [count_zero_regs, if_pos, h1]
    refine ⟨by omega, ?_⟩
    rw [h1, num, le_fin]
    exact hle

/-! ## The original HyperLogLog -/

theorem hexact_ge_zeros (M : List Nat) : (M.count 0 : ℚ) ≤ hexact M := by
  induction M with
  | nil => simp [hexact]
  | cons r M ih =>
    rw [hexact_cons, List.count_cons]
    by_cases h : r = 0
    · subst h; simp; linarith
    · have : (0 : ℚ) < 1 / 2 ^ r := by positivity
      rw [if_neg (by simpa using h)]
      push_cast; linarith

/-- With at least 3/10 of the registers empty the raw estimate is small enough for linear
counting. -/
theorem pf_raw_small {p : Nat} (hp1 : 4 ≤ p) (hp2 : p ≤ 16) (S : Finset Nat)
    (hZ : 3 / 10 * (2 : ℚ) ^ p ≤ zeros 32 p S) :
    rawQ p (hsum 0 (regs 32 p S)) ≤ 5 / 2 * 2 ^ p := by
  have hm : (0 : ℚ) < 2 ^ p := by positivity
  have hge := hexact_ge_zeros (regs 32 p S)
  rw [count_zero_regs] at hge
  rw [pf_hsum_exact hp1 hp2 (by simp [regs]) (by
    intro r hr
    obtain ⟨j, _, rfl⟩ := List.mem_map.1 hr
    exact le_trans (reg_le _ _ _ _) (by omega))]
  have hH : 3 / 10 * (2 : ℚ) ^ p ≤ hexact (regs 32 p S) := hZ.trans hge
  have hH0 : 0 < hexact (regs 32 p S) := lt_of_lt_of_le (by positivity) hH
  have e : rnd (5 / 2 * (2 : ℚ) ^ p) = 5 / 2 * 2 ^ p := by
    have h := rnd_of_int_mul (K := ℚ) (m := 5) (e := (p : ℤ) - 1) (by norm_num) (by omega)
    have e2 : ((5 : ℤ) : ℚ) * 2 ^ ((p : ℤ) - 1) = 5 / 2 * 2 ^ p := by
      rw [zpow_sub₀ (by norm_num), zpow_natCast]; push_cast; norm_num; ring
    rw [e2] at h; exact h
  unfold rawQ
  apply rnd_le_of_le e
  rw [Rat.cast_id, div_le_iff₀ hH0]
  refine (rawNum_le hp1 (by omega)).trans ?_
  nlinarith

/-- The estimate of the original HyperLogLog when the zero registers are near their average. -/
theorem pfCount_accurate {ln : F64 → F64} (hln : LnSpec ln) {p n : Nat} (hp1 : 4 ≤ p)
    (hp2 : p ≤ 16) {t : ℝ} (ht0 : 0 < t)
    (ht : 3 / 10 * 2 ^ p + t ≤ 2 ^ p * (1 - 1 / 2 ^ p) ^ n) {S : Finset Nat}
    (hZ : |(zeros 32 p S : ℝ) - 2 ^ p * (1 - 1 / 2 ^ p) ^ n| < t) :
    ∃ y : ℚ, pfCount ln p S = fin y ∧ |(y : ℝ) - n| ≤ linErrF p n t := by
  have hm : (0 : ℝ) < 2 ^ p := by positivity
  obtain ⟨h0, y, h1, h2⟩ := linear_computed hln (by omega) (by omega) ht0 (by linarith) hZ
    (zeros_le _ _ _)
  refine ⟨y, ?_, h2⟩
  have h3 : 3 / 10 * (2 : ℚ) ^ p ≤ zeros 32 p S := by
    have : 3 / 10 * (2 : ℝ) ^ p ≤ zeros 32 p S := by linarith [(abs_lt.1 hZ).1]
    have : ((3 / 10 * (2 : ℚ) ^ p : ℚ) : ℝ) ≤ ((zeros 32 p S : ℚ) : ℝ) := by
      push_cast; exact this
    exact_mod_cast this
  have h4 := pf_raw_small hp1 hp2 S h3
  rcases pfRegime_cases ln hp1 hp2 S with ⟨_, _, _, h⟩ | ⟨h, _⟩
  · rw [h, count_zero_regs, h1]
  · exact absurd ⟨h4, by rw [count_zero_regs]; omega⟩ h

end HLL
