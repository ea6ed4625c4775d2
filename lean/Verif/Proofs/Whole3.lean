import Verif.Proofs.Whole2
import Verif.Proofs.Worst

/-! # The estimate when the registers behave as expected -/

namespace HLL
open F64 Spec Exps

section
variable {p n : Nat} {δ : ℝ} {ln : F64 → F64}

/-- The relative error, with respect to `n + 1.6 m`, of HyperLogLog++ in the good case. -/
noncomputable def wholeErr (p : Nat) (δ : ℝ) : ℝ := 1.05 * δ + 0.005 + 4 / 2 ^ p

theorem threshold_ge_mul (hp1 : 8 ≤ p) (hp2 : p ≤ 18) : 0.61 * (2 : ℝ) ^ p ≤ threshold p := by
  interval_cases p <;> norm_num [threshold]

theorem threshold_le_mul' (hp1 : 8 ≤ p) (hp2 : p ≤ 18) : (threshold p : ℝ) ≤ 1.336 * 2 ^ p :=
  threshold_le_mul (by omega) hp2

theorem alpha_ge (hp1 : 8 ≤ p) (hp2 : p ≤ 18) : (0.7182 : ℝ) ≤ alphaQ p := by
  obtain ⟨a1, -⟩ := alpha_near (p := p) (by omega) hp2
  have hw : 1.1 / (2 : ℝ) ^ p ≤ 1.1 / 256 := by have := m_ge hp1; gcongr
  norm_num at *
  linarith

/-- With few empty registers the sketch is dense and linear counting is not used. -/
theorem few_zeros (hln : LnSpec ln) (hp1 : 4 ≤ p) (hp2 : p ≤ 18) {S : Finset Nat}
    (hS : ∀ h ∈ S, h < 2 ^ 64) (hz : 5 * zeros 64 p S < 2 ^ p) :
    ¬ fitsSparse p S ∧ ¬ ((regs 64 p S).count 0 ≠ 0 ∧
      le (linear ln (2 ^ p) ((regs 64 p S).count 0)) (num (threshold p)) = true) := by
  constructor
  · intro a2
    have h1 := used_le_codes hp1 hp2 hS
    have h2 := card_le_encSize (codes p S)
    unfold fitsSparse capacity at a2
    omega
  · rintro ⟨a3, a4⟩
    rw [count_zero_regs] at a3 a4
    have h18 : 2 ^ p ≤ 2 ^ 18 := Nat.pow_le_pow_right (by norm_num) hp2
    obtain ⟨y, h1, _, h2⟩ := linear_approx hln (m := 2 ^ p) (V := zeros 64 p S) (by omega)
      (by omega) (by omega)
    rw [h1, num, le_fin] at a4
    have a4' : (y : ℝ) ≤ threshold p := by exact_mod_cast a4
    have ht := threshold_le_mul hp1 hp2
    have hz0 : (0 : ℝ) < zeros 64 p S := by exact_mod_cast Nat.pos_of_ne_zero a3
    have hl : Real.log 4 ≤ Real.log (((2 ^ p : ℕ) : ℝ) / zeros 64 p S) := by
      apply Real.log_le_log (by norm_num)
      rw [le_div_iff₀ hz0]
      have : 4 * zeros 64 p S ≤ 2 ^ p := by omega
      exact_mod_cast this
    have hl4 := log_four
    push_cast at h2 hl
    have hm' : (16 : ℝ) ≤ 2 ^ p := by
      calc (16 : ℝ) = 2 ^ 4 := by norm_num
        _ ≤ 2 ^ p := pow_le_pow_right₀ (by norm_num) hp1
    have h18' : (2 : ℝ) ^ p ≤ 2 ^ 18 := by exact_mod_cast h18
    have h3 : (2 : ℝ) ^ p * 1.386 ≤ 2 ^ p * Real.log (2 ^ p / zeros 64 p S) := by
      gcongr; linarith
    have h4 := (abs_le.1 h2).1
    generalize (2 : ℝ) ^ p * Real.log (2 ^ p / zeros 64 p S) = L at *
    norm_num at h3 h4 ht
    linarith

/-- What the sparse representation gives for `C` codes. -/
theorem sparse_value (hln : LnSpec ln) (hp2 : p ≤ 18) {C : Nat} (hC : C ≤ capacity p) :
    ∃ y : ℚ, linear ln (2 ^ 24) (2 ^ 24 - C) = fin y ∧ (C : ℝ) ≤ y ∧ (y : ℝ) ≤ C + 0.0127 * C := by
  have hcap := capacity_le hp2
  rcases Nat.eq_zero_or_pos C with rfl | hC0
  · obtain ⟨y, hy, h0, _⟩ := linear_approx hln (m := 2 ^ 24) (V := 2 ^ 24 - 0) (by norm_num)
      (by norm_num) le_rfl
    exact ⟨y, hy, by rw [h0 (by norm_num)]; simp, by rw [h0 (by norm_num)]; simp⟩
  · obtain ⟨y, hy, h1, h2, _⟩ := sparse_bounds hln hC0 (by omega : C ≤ 2 ^ 18)
    refine ⟨y, hy, ?_, ?_⟩
    · have := (Rat.cast_le (K := ℝ)).2 h1; push_cast at this; exact this
    · have h2' : (y : ℝ) ≤ C * 2 ^ 24 / (2 ^ 24 - C) := by
        have := (Rat.cast_le (K := ℝ)).2 h2; push_cast at this; exact this
      refine h2'.trans ?_
      have hCb : (C : ℝ) ≤ 209715 := by exact_mod_cast hC.trans hcap
      rw [div_le_iff₀ (by norm_num; linarith)]
      have : (0 : ℝ) ≤ C := Nat.cast_nonneg C
      norm_num
      nlinarith

/-- Sparse counting. -/
theorem sparse_whole (hln : LnSpec ln) (hp2 : p ≤ 18) (hδ0 : 0 ≤ δ) (hn : n ≤ 2 * 2 ^ p) {C Z : Nat}
    (hCn : C ≤ n) (hC : C ≤ capacity p) (hCZ : 2 ^ 25 ≤ Z + C)
    (hZ : |(Z : ℝ) - 2 ^ 25 * (1 - 1 / 2 ^ 25) ^ n| ≤ δ * (n + 1.6 * 2 ^ p)) :
    ∃ y : ℚ, linear ln (2 ^ 24) (2 ^ 24 - C) = fin y ∧
      |(y : ℝ) - n| ≤ wholeErr p δ * (n + 1.6 * 2 ^ p) := by
  have hcap := capacity_le hp2
  have hC5 : 5 * C ≤ 4 * 2 ^ p := by unfold capacity at hC; omega
  have hm2 := m_le hp2
  have hC5' : 5 * (C : ℝ) ≤ 4 * 2 ^ p := by exact_mod_cast hC5
  have hn' : (n : ℝ) ≤ 2 * 2 ^ p := by exact_mod_cast hn
  have hn0 : (0 : ℝ) ≤ n := Nat.cast_nonneg n
  have hCn' : (C : ℝ) ≤ n := by exact_mod_cast hCn
  have hCZ' : (2 : ℝ) ^ 25 ≤ Z + C := by exact_mod_cast hCZ
  -- the codes
  have hlow : (n : ℝ) - n ^ 2 / 2 ^ 26 - δ * (n + 1.6 * 2 ^ p) ≤ C := by
    have h1 := pow_le_quad (x := 1 / 2 ^ 25) (by norm_num) (by norm_num) n
    have h2 := (abs_le.1 hZ).2
    generalize (1 - 1 / 2 ^ 25 : ℝ) ^ n = q at *
    generalize δ * ((n : ℝ) + 1.6 * 2 ^ p) = t at *
    norm_num at *
    nlinarith
  have hq : (n : ℝ) ^ 2 / 2 ^ 26 ≤ 0.005 * (n + 1.6 * 2 ^ p) := by
    have : (n : ℝ) ^ 2 ≤ n * 2 ^ 19 := by
      rw [pow_two]; refine mul_le_mul_of_nonneg_left ?_ hn0; norm_num at hm2; linarith
    norm_num at this ⊢
    linarith
  have hw : 0 ≤ 4 / (2 : ℝ) ^ p * (n + 1.6 * 2 ^ p) := by positivity
  have hδs : 0 ≤ δ * ((n : ℝ) + 1.6 * 2 ^ p) := by positivity
  have hE : wholeErr p δ * ((n : ℝ) + 1.6 * 2 ^ p) = 1.05 * (δ * (n + 1.6 * 2 ^ p)) +
      0.005 * (n + 1.6 * 2 ^ p) + 4 / 2 ^ p * (n + 1.6 * 2 ^ p) := by unfold wholeErr; ring
  rw [hE]
  generalize 4 / (2 : ℝ) ^ p * (n + 1.6 * 2 ^ p) = a at *
  generalize δ * ((n : ℝ) + 1.6 * 2 ^ p) = t at *
  obtain ⟨y, h1, h2, h3⟩ := sparse_value hln hp2 hC
  refine ⟨y, h1, ?_⟩
  rw [abs_le]
  generalize (2 : ℝ) ^ p = m at *
  norm_num at h3 hlow hq hm2 ⊢
  constructor <;> linarith

/-- Linear counting for up to `2 m` values. -/
theorem linear_whole (hln : LnSpec ln) (hp1 : 8 ≤ p) (hp2 : p ≤ 18) (hδ0 : 0 < δ) (hδ : δ ≤ 1 / 10)
    {Z : Nat} (hZ : |(Z : ℝ) - 2 ^ p * (1 - 1 / 2 ^ p) ^ n| < zdev p n δ) (hZm : Z ≤ 2 ^ p) :
    0 < Z ∧ ∃ y : ℚ, linear ln (2 ^ p) Z = fin y ∧
      |(y : ℝ) - n| ≤ (δ + 1.02 / 2 ^ p) * (n + 1.6 * 2 ^ p) := by
  obtain ⟨z1, z2, -⟩ := zdev_facts (p := p) (n := n) hp1 hδ0
  obtain ⟨h1, y, h2, h3⟩ := linear_computed hln (by omega) hp2 z1 z2 hZ hZm
  exact ⟨h1, y, h2, h3.trans (lin_err hp1 hp2 hδ0 hδ)⟩

theorem wholeErr_ge (hδ0 : 0 < δ) : δ + 1.02 / 2 ^ p ≤ wholeErr p δ := by
  unfold wholeErr
  have : 1.02 / (2 : ℝ) ^ p ≤ 4 / 2 ^ p := by gcongr; norm_num
  norm_num at *
  linarith

/-- The raw estimate itself, above `5 m`. -/
theorem high_whole (hp1 : 8 ≤ p) (hp2 : p ≤ 18) (hn : n ≤ 6 * 2 ^ p) (hδ0 : 0 ≤ δ)
    {raw : ℝ} (h1 : (1 - (δ + 1.7 / 2 ^ p)) * (alphaQ p * 2 ^ p) ≤ raw * E (n / 2 ^ p))
    (h2 : raw * E (n / 2 ^ p) ≤ (1 + (δ + 1.7 / 2 ^ p)) * (alphaQ p * 2 ^ p)) (h5 : 5 * 2 ^ p < raw) :
    |raw - n| ≤ wholeErr p δ * (n + 1.6 * 2 ^ p) := by
  obtain ⟨a1, a2⟩ := alpha_near (p := p) (by omega) hp2
  have hm := m_ge hp1
  have hn' : (n : ℝ) ≤ 6 * 2 ^ p := by exact_mod_cast hn
  have hw : 1 / (2 : ℝ) ^ p ≤ 1 / 256 := by gcongr
  have hw0 : 0 < 1 / (2 : ℝ) ^ p := by positivity
  have e1 : 1.7 / (2 : ℝ) ^ p = 1.7 * (1 / 2 ^ p) := by ring
  have e2 : 1.1 / (2 : ℝ) ^ p = 1.1 * (1 / 2 ^ p) := by ring
  have e3 : 1.06 / (2 : ℝ) ^ p = 1.06 * (1 / 2 ^ p) := by ring
  have e4 : 4 / (2 : ℝ) ^ p = 4 * (1 / 2 ^ p) := by ring
  have hl0 : (0 : ℝ) ≤ n / 2 ^ p := by positivity
  have hl6 : (n : ℝ) / 2 ^ p ≤ 6 := by rw [div_le_iff₀ (by positivity)]; exact hn'
  have hEp := E_pos ((n : ℝ) / 2 ^ p)
  have hlm : (n : ℝ) = n / 2 ^ p * 2 ^ p := by field_simp
  have hw4 : 0 ≤ 4 / (2 : ℝ) ^ p := by positivity
  rcases lt_or_ge ((n : ℝ) / 2 ^ p) 4.4 with hc | hl44
  · -- few values: then the raw estimate is far off
    have t1 := E_ratio_le hl0 hc.le (by norm_num)
    have t2 := (local_bounds (x := 4.4) (by norm_num) (by norm_num)).value le_rfl
    have ha : (alphaQ p : ℝ) * 2 ^ p ≤ 0.7213 * 2 ^ p := by
      refine mul_le_mul_of_nonneg_right ?_ (by positivity)
      rw [e3] at a2; norm_num at *; linarith
    have hk : 0 < 1 + (δ + 1.7 / (2 : ℝ) ^ p) := by positivity
    have t3 : raw * E (n / 2 ^ p) ≤ (1 + (δ + 1.7 / 2 ^ p)) * (0.7213 * 2 ^ p) :=
      h2.trans (mul_le_mul_of_nonneg_left ha hk.le)
    -- raw * 0.977 / (l + 1.6) ≤ (1 + ρ) 0.7213 m
    have hs : 0 < (n : ℝ) / 2 ^ p + 1.6 := by positivity
    have t4 : raw * 0.977 ≤ (1 + (δ + 1.7 / 2 ^ p)) * (0.7213 * 2 ^ p) * (n / 2 ^ p + 1.6) := by
      have hraw0 : 0 < raw := lt_trans (by positivity) h5
      calc raw * 0.977 ≤ raw * ((n / 2 ^ p + 1.6) * E (n / 2 ^ p)) := by
            refine mul_le_mul_of_nonneg_left (le_trans ?_ t1) hraw0.le
            norm_num at t2 ⊢; linarith
        _ = raw * E (n / 2 ^ p) * (n / 2 ^ p + 1.6) := by ring
        _ ≤ _ := mul_le_mul_of_nonneg_right t3 hs.le
    have hge : (n : ℝ) ≤ raw := by
      rw [hlm]
      have : (n : ℝ) / 2 ^ p * 2 ^ p ≤ 4.4 * 2 ^ p := by gcongr
      norm_num at this; linarith
    rw [abs_of_nonneg (by linarith)]
    unfold wholeErr
    have e5 : (n : ℝ) + 1.6 * 2 ^ p = (n / 2 ^ p + 1.6) * 2 ^ p := by field_simp
    rw [e5, e4]
    rw [e1] at t4
    have hx : 0 ≤ (0.05 * δ + 0.005 + 2.3 * (1 / 2 ^ p)) * ((n / 2 ^ p + 1.6) * 2 ^ p) := by positivity
    have e6 : (n / 2 ^ p + 1.6) * (2 : ℝ) ^ p = n + 1.6 * 2 ^ p := e5.symm
    have e7 : (1 + (δ + 1.7 * (1 / 2 ^ p))) * (0.7213 * 2 ^ p) * ((n : ℝ) / 2 ^ p + 1.6) =
        0.7213 * (((n : ℝ) / 2 ^ p + 1.6) * 2 ^ p) +
        0.7213 * ((δ + 1.7 * (1 / 2 ^ p)) * ((n / 2 ^ p + 1.6) * 2 ^ p)) := by ring
    have e8 : (1.05 * δ + 0.005 + 4 * (1 / 2 ^ p)) * (((n : ℝ) / 2 ^ p + 1.6) * 2 ^ p) =
        (0.05 * δ + 0.005 + 2.3 * (1 / 2 ^ p)) * ((n / 2 ^ p + 1.6) * 2 ^ p) +
        (δ + 1.7 * (1 / 2 ^ p)) * ((n / 2 ^ p + 1.6) * 2 ^ p) := by ring
    rw [e7] at t4
    rw [e8]
    rw [e6] at t4 hx ⊢
    generalize (δ + 1.7 * (1 / (2 : ℝ) ^ p)) * (n + 1.6 * 2 ^ p) = X at *
    generalize (0.05 * δ + 0.005 + 2.3 * (1 / (2 : ℝ) ^ p)) * (n + 1.6 * 2 ^ p) = Y at *
    norm_num at t4 ⊢
    linarith
  have hv := (local_bounds hl0 hl6).value hl44
  have hv' := (local_bounds hl0 hl6).value' hl44
  unfold wholeErr
  rw [e4]
  rw [e1] at h1 h2
  rw [e2] at a1
  rw [e3] at a2
  have hraw0 : 0 < raw := lt_trans (by positivity) h5
  generalize (alphaQ p : ℝ) = α at *
  generalize E ((n : ℝ) / 2 ^ p) = e at *
  generalize 1 / (2 : ℝ) ^ p = w at *
  generalize (2 : ℝ) ^ p = m at *
  generalize (n : ℝ) / m = l at *
  have hm0 : 0 < m := by linarith
  rw [hlm]
  have eρ : 0 ≤ δ + 1.7 * w := by positivity
  have u1 : raw ≤ (1 + (δ + 1.7 * w)) * 1.006 * (l * m) := by
    have t1 : raw * e ≤ (1 + (δ + 1.7 * w)) * (1.006 * l * e * m) := by
      refine h2.trans (mul_le_mul_of_nonneg_left ?_ (by linarith))
      refine mul_le_mul_of_nonneg_right ?_ hm0.le
      norm_num at *; linarith
    have : raw * e ≤ ((1 + (δ + 1.7 * w)) * 1.006 * (l * m)) * e := by linarith
    exact le_of_mul_le_mul_right this hEp
  have u2 : (1 - (δ + 1.7 * w)) * (1 - 1.1 * w) * (l * m) ≤ 1.005 * raw := by
    rcases lt_or_ge (1 - (δ + 1.7 * w)) 0 with hneg | eρ'
    · have t0 : (1 - (δ + 1.7 * w)) * ((1 - 1.1 * w) * (l * m)) ≤ 0 := by
        have : 0 ≤ 1 - 1.1 * w := by norm_num at *; linarith
        exact mul_nonpos_of_nonpos_of_nonneg hneg.le (by positivity)
      norm_num at *
      linarith
    have t1 : (1 - (δ + 1.7 * w)) * (0.7213 * (1 - 1.1 * w) * m) ≤ raw * e := by
      refine le_trans (mul_le_mul_of_nonneg_left ?_ (by linarith)) h1
      refine mul_le_mul_of_nonneg_right ?_ hm0.le
      norm_num at *; linarith
    have t2 : (1 - (δ + 1.7 * w)) * (0.7213 * (1 - 1.1 * w) * m) * l ≤ raw * (1.005 * 0.7213) := by
      calc _ ≤ raw * e * l := mul_le_mul_of_nonneg_right t1 hl0
        _ = raw * (l * e) := by ring
        _ ≤ _ := mul_le_mul_of_nonneg_left hv' hraw0.le
    norm_num at *
    linarith
  have hx : 0 ≤ l * m := by positivity
  have hs : 1.26 * (l * m) ≤ l * m + 1.6 * m := by
    have : l * m ≤ 6 * m := by rw [← hlm]; exact hn'
    norm_num at *; linarith
  have hk : (0 : ℝ) ≤ 1.05 * δ + 0.005 + 4 * w := by positivity
  have hs2 := mul_le_mul_of_nonneg_left hs hk
  rw [abs_le]
  constructor
  · have k2 : (1 - (1.05 * δ + 0.005 + 4 * w) * 1.26) * 1.005 ≤ (1 - (δ + 1.7 * w)) * (1 - 1.1 * w) := by
      norm_num at *; nlinarith [mul_nonneg hδ0 hw0.le]
    have := mul_le_mul_of_nonneg_right k2 hx
    norm_num at *
    linarith
  · have k2 : (1 + (δ + 1.7 * w)) * 1.006 - 1 ≤ (1.05 * δ + 0.005 + 4 * w) * 1.26 := by
      norm_num at *; linarith
    have := mul_le_mul_of_nonneg_right k2 hx
    linarith

theorem corrected_arith {l z y raw A m w : ℝ} (hm : 256 ≤ m) (hl0 : 0 ≤ l) (hw0 : 0 ≤ w)
    (hw : w ≤ 1 / 256) (hδ0 : 0 ≤ δ) (hz0 : 0 ≤ z) (hz6 : z ≤ 6) (hl6 : l ≤ 6) (hA : 0 < A)
    (hr : 0 < raw) (hy : |y - z * m| ≤ 1 / 2 ^ 25)
    (h1 : (1 - (δ + 1.7 * w)) * A ≤ raw * E l) (h2 : raw * E l ≤ (1 + (δ + 1.7 * w)) * A)
    (h3 : (1 - (0.0046 + 1.8 * w)) * A ≤ raw * E z) (h4 : raw * E z ≤ (1 + (0.0046 + 1.8 * w)) * A) :
    |y - l * m| ≤ (1.05 * δ + 0.005 + 4 * w) * (l * m + 1.6 * m) := by
  have hc := ratio_close hl0 hl6 hz0 hz6 hA hr h1 h2 h3 h4
  have hs : (0 : ℝ) < l + 1.6 := by positivity
  have hc2 : |z - l| ≤ (1.03 * δ + 0.0049 + 3.9 * w) * (l + 1.6) := by
    have t1 : (0 : ℝ) < 1 - (0.0046 + 1.8 * w) := by norm_num at *; linarith
    refine le_of_mul_le_mul_right (hc.trans ?_) t1
    have t2 : δ + 1.7 * w + (0.0046 + 1.8 * w) ≤
        (1.03 * δ + 0.0049 + 3.9 * w) * (1 - (0.0046 + 1.8 * w)) := by
      norm_num at *
      nlinarith [mul_le_mul_of_nonneg_left hw hδ0, mul_le_mul_of_nonneg_left hw hw0]
    have := mul_le_mul_of_nonneg_right t2 hs.le
    linarith
  have hm0 : 0 ≤ m := by linarith
  have hc3 := mul_le_mul_of_nonneg_right hc2 hm0
  have e : |z - l| * m = |z * m - l * m| := by rw [← sub_mul, abs_mul, abs_of_nonneg hm0]
  rw [e] at hc3
  have ht : y - l * m = (y - z * m) + (z * m - l * m) := by ring
  rw [ht]
  refine (abs_add_le _ _).trans ((add_le_add hy hc3).trans ?_)
  have k1 : (256 : ℝ) * 1.6 ≤ (l + 1.6) * m := by
    have : 0 ≤ l * m := by positivity
    norm_num; linarith
  have k2 : (0 : ℝ) ≤ (0.02 * δ + 0.1 * w) * ((l + 1.6) * m) := by positivity
  norm_num at *
  linarith

/-- The bias-corrected estimate. -/
theorem corrected_whole (hp1 : 8 ≤ p) (hp2 : p ≤ 18) (hn : n ≤ 6 * 2 ^ p) (hδ0 : 0 ≤ δ) {raw β : ℚ}
    (hc : Plus.BiasCase p raw β) (hlow : Plus.rawV p 0 < raw)
    (hraw : alphaQ p * 2 ^ p - 1 / 2 ^ 30 ≤ raw)
    (h1 : (1 - (δ + 1.7 / 2 ^ p)) * (alphaQ p * 2 ^ p) ≤ raw * E (n / 2 ^ p))
    (h2 : raw * E (n / 2 ^ p) ≤ (1 + (δ + 1.7 / 2 ^ p)) * (alphaQ p * 2 ^ p)) (h5 : raw ≤ 5 * 2 ^ p) :
    |((rnd (raw - β) : ℚ) : ℝ) - n| ≤ wholeErr p δ * (n + 1.6 * 2 ^ p) := by
  have hm := m_ge hp1
  have hm2 := m_le hp2
  have hn' : (n : ℝ) ≤ 6 * 2 ^ p := by exact_mod_cast hn
  have hw : 1 / (2 : ℝ) ^ p ≤ 1 / 256 := by gcongr
  have hw0 : 0 < 1 / (2 : ℝ) ^ p := by positivity
  have e1 : 1.7 / (2 : ℝ) ^ p = 1.7 * (1 / 2 ^ p) := by ring
  have e4 : 4 / (2 : ℝ) ^ p = 4 * (1 / 2 ^ p) := by ring
  have e5 : 1.8 / (2 : ℝ) ^ p = 1.8 * (1 / 2 ^ p) := by ring
  have hl0 : (0 : ℝ) ≤ n / 2 ^ p := by positivity
  have hl6 : (n : ℝ) / 2 ^ p ≤ 6 := by rw [div_le_iff₀ (by positivity)]; exact hn'
  have hlm : (n : ℝ) = n / 2 ^ p * 2 ^ p := by field_simp
  have hα := alpha_ge hp1 hp2
  have hraw0 : (0 : ℝ) < raw := by
    have h3 := (Rat.cast_le (K := ℝ)).2 hraw
    push_cast at h3
    have : (0.7182 : ℝ) * 256 ≤ alphaQ p * 2 ^ p := mul_le_mul hα hm (by norm_num) (by linarith)
    norm_num at h3 this; linarith
  obtain ⟨z, z0, z6, hz, c1, c2⟩ := Plus.corrected_near hp1 hp2 hc hlow h5
  have hr : |((rnd (raw - β) : ℚ) : ℝ) - z * 2 ^ p| ≤ 1 / 2 ^ 25 := by
    have r1 := (Rat.cast_le (K := ℝ)).2 (rnd_err' (raw - β))
    push_cast at r1 hz
    have r2 : z * 2 ^ p ≤ 6 * 2 ^ p := mul_le_mul_of_nonneg_right z6 (by positivity)
    have r3 : 0 ≤ z * 2 ^ p := by positivity
    have r4 : |(raw : ℝ) - β| ≤ 6 * 2 ^ p + 1 := by
      rw [abs_le] at hz ⊢
      generalize z * 2 ^ p = x at *
      norm_num at hz
      constructor <;> linarith
    rw [abs_le] at hz r1 ⊢
    generalize z * 2 ^ p = x at *
    generalize |(raw : ℝ) - β| = b at *
    norm_num at hz r1 r4 hm2 ⊢
    constructor <;> linarith
  unfold Plus.tol' at c1 c2
  unfold wholeErr
  rw [e4]
  rw [e1] at h1 h2
  rw [e5] at c1 c2
  have hA : (0 : ℝ) < alphaQ p * 2 ^ p := mul_pos (by linarith) (by positivity)
  have := corrected_arith hm hl0 hw0.le hw hδ0 z0 z6 hl6 hA hraw0 hr h1 h2 c1 c2
  rw [hlm]
  have e6 : (n : ℝ) / 2 ^ p * 2 ^ p / 2 ^ p * 2 ^ p = n / 2 ^ p * 2 ^ p := by field_simp
  exact this

/-- Linear counting is used for the raw estimates below the bias tables. -/
theorem not_linear (hln : LnSpec ln) (hp1 : 8 ≤ p) (hp2 : p ≤ 18) {M : List Nat} (hM : Regs p M)
    (h : ¬ (M.count 0 ≠ 0 ∧ le (linear ln (2 ^ p) (M.count 0)) (num (threshold p)) = true)) :
    Plus.rawV p 0 < rawQ p (hsum 0 M) := by
  by_contra hcon
  rw [not_lt] at hcon
  have hm := m_ge hp1
  have hα := alpha_ge hp1 hp2
  have hg := (Rat.cast_le (K := ℝ)).2 (raw_ge_zeros (by omega) hp2 hM)
  have hr : ((rawQ p (hsum 0 M) : ℚ) : ℝ) ≤ 0.7251 * 2 ^ p :=
    le_trans (by exact_mod_cast hcon) (Plus.table_ends hp1 hp2).1
  have hVm : M.count 0 ≤ 2 ^ p := by rw [← hM.length]; exact List.count_le_length
  push_cast at hg
  have hV : 0.98 * (2 : ℝ) ^ p ≤ M.count 0 := by
    have hV0 : (0 : ℝ) ≤ M.count 0 := Nat.cast_nonneg _
    have h3 : 2 * (0.7182 : ℝ) * 2 ^ p * 2 ^ p * (1 - 1 / 2 ^ 51) ≤ 0.7251 * 2 ^ p * (2 ^ p + M.count 0) := by
      refine le_trans ?_ (hg.trans (mul_le_mul_of_nonneg_right hr (by positivity)))
      have : (0 : ℝ) ≤ 1 - 1 / 2 ^ 51 := by norm_num
      gcongr
    have h4 : 2 * (0.7182 : ℝ) * 2 ^ p * (1 - 1 / 2 ^ 51) ≤ 0.7251 * (2 ^ p + M.count 0) := by
      refine le_of_mul_le_mul_left ?_ (by positivity : (0 : ℝ) < 2 ^ p)
      linarith
    norm_num at h4 ⊢
    linarith
  have hV0 : 0 < M.count 0 := by
    have : (0 : ℝ) < M.count 0 := by norm_num at hV; linarith
    exact_mod_cast this
  have h18 : 2 ^ p ≤ 2 ^ 18 := Nat.pow_le_pow_right (by norm_num) hp2
  obtain ⟨y, k1, -, k2⟩ := linear_approx hln hV0 hVm (by omega)
  refine h ⟨hV0.ne', ?_⟩
  rw [k1, num, le_fin]
  have hVr : (0 : ℝ) < M.count 0 := by exact_mod_cast hV0
  have hl : Real.log (((2 ^ p : ℕ) : ℝ) / M.count 0) ≤ 0.03 := by
    refine (Real.log_le_sub_one_of_pos (by positivity)).trans ?_
    push_cast
    rw [sub_le_iff_le_add, div_le_iff₀ hVr]
    norm_num at hV ⊢
    linarith
  have ht := threshold_ge_mul hp1 hp2
  push_cast at k2 hl
  have h5 : (2 : ℝ) ^ p * Real.log (2 ^ p / M.count 0) ≤ 2 ^ p * 0.03 := by gcongr
  have h6 := (abs_le.1 k2).2
  generalize (2 : ℝ) ^ p * Real.log (2 ^ p / M.count 0) = L at *
  have : (y : ℝ) ≤ threshold p := by norm_num at h5 h6 ht; linarith
  exact_mod_cast this

/-- HyperLogLog++ when the sum over the registers, the number of empty registers, and the number of
distinct prefixes of 25 bits are near their averages, for up to `6 m` values. -/
theorem whole_low (hln : LnSpec ln) (v : Search) (hp1 : 8 ≤ p) (hp2 : p ≤ 18) (hδ0 : 0 < δ)
    (hδ : δ ≤ 1 / 10) (hn : n ≤ 6 * 2 ^ p) {S : Finset Nat} (hS : ∀ h ∈ S, h < 2 ^ 64)
    (hCn : (codes p S).card ≤ n)
    (hraw : |(rawQ p (hsum 0 (regs 64 p S)) : ℝ) - centre 64 p n| ≤
      (δ + (1 + δ) / 2 ^ 32) * centre 64 p n)
    (hz : n ≤ 2 * 2 ^ p → |(zeros 64 p S : ℝ) - 2 ^ p * (1 - 1 / 2 ^ p) ^ n| < zdev p n δ)
    (hz' : 2 * 2 ^ p < n → 5 * zeros 64 p S < 2 ^ p)
    (hc : n ≤ 2 * 2 ^ p →
      |(zeros 64 25 S : ℝ) - 2 ^ 25 * (1 - 1 / 2 ^ 25) ^ n| < δ * (n + 1.6 * 2 ^ p)) :
    ∃ y : ℚ, plusCount ln (Plus.biasOf v) p S = fin y ∧
      |(y : ℝ) - n| ≤ wholeErr p δ * (n + 1.6 * 2 ^ p) := by
  obtain ⟨r1, r2⟩ := raw_range (by omega) hp1 hp2 hn hδ0 hδ hraw
  rcases plusRegime_cases v ln (by omega : 4 ≤ p) hp2 S with
    ⟨_, a2, a3⟩ | ⟨_, a2, a3, a4, a5⟩ | ⟨_, a3, ⟨_, a4, a5⟩ | ⟨_, a4, a5⟩⟩
  · have hn2 : n ≤ 2 * 2 ^ p := by
      by_contra hcon
      exact (few_zeros hln (by omega) hp2 hS (hz' (by omega))).1 a2
    obtain ⟨y, h1, h2⟩ := sparse_whole hln hp2 hδ0.le hn2 hCn ((card_le_encSize _).trans a2)
      prefixes_le_codes (hc hn2).le
    exact ⟨y, a3.trans h1, h2⟩
  · have hn2 : n ≤ 2 * 2 ^ p := by
      by_contra hcon
      exact (few_zeros hln (by omega) hp2 hS (hz' (by omega))).2 ⟨a3, a4⟩
    rw [count_zero_regs] at a5
    obtain ⟨-, y, h1, h2⟩ := linear_whole hln hp1 hp2 hδ0 hδ (hz hn2) (zeros_le _ _ _)
    refine ⟨y, a5.trans h1, h2.trans ?_⟩
    exact mul_le_mul_of_nonneg_right (wholeErr_ge hδ0) (by positivity)
  · have hM : Regs p (regs 64 p S) := regs_regs _ (by omega)
    obtain ⟨β, c1, c2, -⟩ := Plus.corrected_eq (v := v) (by omega) hp2 (rnd_rnd _)
      (hM.raw_bounds (by omega) hp2).1 a4
    refine ⟨_, a5.trans c2, ?_⟩
    exact corrected_whole hp1 hp2 hn hδ0.le c1 (not_linear hln hp1 hp2 hM a3) (hM.raw_bounds (by omega) hp2).1
      r1 r2 a4
  · refine ⟨_, a5, high_whole hp1 hp2 hn hδ0.le r1 r2 ?_⟩
    have h6 := (Rat.cast_lt (K := ℝ)).2 a4
    push_cast at h6
    exact h6

end
end HLL
