import Verif.Proofs.Corrected
import Mathlib.Analysis.Complex.ExponentialBounds

/-! # Values of the estimator of the original HyperLogLog -/

namespace HLL
open F64

namespace Spec

theorem two_half : ofDec 25 1 = fin (5 / 2) := by decide +kernel

/-- The threshold `2.5 m` is exact. -/
theorem pf_threshold {p : Nat} (hp1 : 4 ≤ p) (hp2 : p ≤ 18) :
    mul (ofDec 25 1) (num (2 ^ p)) = fin (5 / 2 * 2 ^ p) := by
  have h18 : 2 ^ p ≤ 2 ^ 18 := Nat.pow_le_pow_right (by norm_num) hp2
  have hm : (2 : ℚ) ^ p ≤ 2 ^ 18 := pow_le_pow_right₀ (by norm_num) hp2
  rw [two_half, num, mul_fin_nonneg (by norm_num) (by positivity)]
  · congr 1
    have e : (5 : ℚ) / 2 * ((2 ^ p : ℕ) : ℚ) = ((5 * 2 ^ (p - 1) : ℕ) : ℚ) := by
      obtain ⟨k, rfl⟩ : ∃ k, p = k + 1 := ⟨p - 1, by omega⟩
      push_cast
      rw [pow_succ]; ring
    have h17 : 2 ^ (p - 1) ≤ 2 ^ 17 := Nat.pow_le_pow_right (by norm_num) (by omega)
    rw [e, rnd_natCast (by omega), ← e]
    push_cast; rfl
  · push_cast
    have : (5 : ℚ) / 2 * 2 ^ p ≤ 2 ^ 20 := by norm_num at hm ⊢; linarith
    exact le_trans this (pow_le_pow_right₀ (by norm_num) (by norm_num))

/-- The threshold `2^32/30` of the large range correction. -/
theorem pf_large : ∃ t : ℚ, div (num (2 ^ 32)) (num 30) = fin t ∧ 2 ^ 32 / 31 ≤ t ∧ t ≤ 2 ^ 32 / 29 := by
  have h : (div (num (2 ^ 32)) (num 30) = fin (div (num (2 ^ 32)) (num 30)).val ∧
      2 ^ 32 / 31 ≤ (div (num (2 ^ 32)) (num 30)).val ∧
      (div (num (2 ^ 32)) (num 30)).val ≤ 2 ^ 32 / 29) := by decide +kernel
  exact ⟨_, h⟩

theorem minus_two32 : mul (neg (num 1)) (num (2 ^ 32)) = fin (-(2 ^ 32)) := by decide +kernel

/-- A double of at least 1 can be divided by `2^32` without error. -/
theorem rnd_div_two32 {q : ℚ} (hq : rnd q = q) (h1 : 1 ≤ q) : rnd (q / 2 ^ 32) = q / 2 ^ 32 := by
  obtain ⟨m, e, hm, he, h⟩ := rnd_form q
  rw [hq] at h
  have he' : -53 ≤ e := by
    by_contra hc
    have hm' : (m : ℚ) ≤ 2 ^ 53 := by exact_mod_cast le_trans (le_abs_self m) hm
    have : q < 1 := by
      rw [h]
      have h2 : (2 : ℚ) ^ e < 2 ^ (-53 : ℤ) := zpow_lt_zpow_right₀ (by norm_num) (by omega)
      have h3 : (0 : ℚ) < 2 ^ e := by positivity
      calc (m : ℚ) * 2 ^ e ≤ 2 ^ 53 * 2 ^ e := mul_le_mul_of_nonneg_right hm' h3.le
        _ < 2 ^ 53 * 2 ^ (-53 : ℤ) := by
          apply mul_lt_mul_of_pos_left h2; norm_num
        _ = 1 := by norm_num
    linarith
  have e1 : q / 2 ^ 32 = (m : ℚ) * 2 ^ (e - 32) := by
    rw [h, zpow_sub₀ (by norm_num)]
    have : (2 : ℚ) ^ (32 : ℤ) = 2 ^ 32 := by norm_cast
    rw [this, mul_div_assoc]
  have := rnd_of_int_mul (K := ℚ) hm (e := e - 32) (by omega)
  rw [e1]; exact this

theorem mul_fin_neg_nan (q : ℚ) : mul (fin q) nan = nan := rfl

/-- The argument of the logarithm in the large range correction. -/
theorem largeArg {q : ℚ} (hq : rnd q = q) (h1 : 2 ^ 32 / 31 ≤ q) (h2 : q ≤ 2 ^ 100) :
    sub (num 1) (div (fin q) (num (2 ^ 32))) = fin (rnd (1 - q / 2 ^ 32)) := by
  have hq1 : 1 ≤ q := le_trans (by norm_num) h1
  have hd := rnd_div_two32 hq hq1
  have hx : div (fin q) (num (2 ^ 32)) = fin (q / 2 ^ 32) := by
    rw [num, div_fin_nonneg (by linarith) (by norm_num)]
    · rw [Nat.cast_pow, Nat.cast_ofNat, hd]
    · push_cast
      refine le_trans (b := (2 : ℚ) ^ 100) ?_ (pow_le_pow_right₀ (by norm_num) (by norm_num))
      rw [div_le_iff₀ (by norm_num)]
      refine le_trans h2 ?_
      norm_num
  have hx0 : 0 < q / 2 ^ 32 := div_pos (by linarith) (by norm_num)
  have hx2 : q / 2 ^ 32 ≤ 2 ^ 68 := by
    rw [div_le_iff₀ (by norm_num)]; refine le_trans h2 (by norm_num)
  rw [hx, num]
  have : |((1 : ℕ) : ℚ) - q / 2 ^ 32| ≤ 2 ^ 1023 := by
    apply big_le
    have : (2 : ℚ) ^ 68 + 1 ≤ 2 ^ 200 := by norm_num
    rw [abs_le]; push_cast; constructor <;> linarith
  rw [sub_fin, round_fin this (Or.inl rfl)]; push_cast; rfl

/-- The large range correction below `2^32`. -/
theorem largeRange_lt {ln : F64 → F64} (hln : LnSpec ln) {q : ℚ} (hq : rnd q = q)
    (h1 : 2 ^ 32 / 31 ≤ q) (h2 : q < 2 ^ 32) :
    ∃ y : ℚ, mul (mul (neg (num 1)) (num (2 ^ 32)))
        (ln (sub (num 1) (div (fin q) (num (2 ^ 32))))) = fin (rnd (-(2 ^ 32) * y)) ∧
      1 ≤ -(2 ^ 32) * y ∧ -100 ≤ y ∧
      0 < rnd (1 - q / 2 ^ 32) ∧ rnd (1 - q / 2 ^ 32) ≤ 127 / 128 ∧
      |(y : ℝ) - Real.log (rnd (1 - q / 2 ^ 32) : ℚ)| ≤ -Real.log (rnd (1 - q / 2 ^ 32) : ℚ) / 2 ^ 40 := by
  have hq1 : 1 ≤ q := le_trans (by norm_num) h1
  have hd := rnd_div_two32 hq hq1
  have hx0 : 0 < q / 2 ^ 32 := div_pos (by linarith) (by norm_num)
  have hx1 : 1 / 31 ≤ q / 2 ^ 32 := by
    rw [le_div_iff₀ (by norm_num)]; linarith
  rw [largeArg hq h1 (le_trans h2.le (by norm_num)), minus_two32]
  have h53 : rnd ((2 : ℚ) ^ (-53 : ℤ)) = 2 ^ (-53 : ℤ) := rnd_two_zpow (by norm_num)
  have hlt : q / 2 ^ 32 < 1 := by rw [div_lt_one (by norm_num)]; exact h2
  have hg : q / 2 ^ 32 ≤ 1 - 2 ^ (-53 : ℤ) := by
    rcases one_gap hd hx0 hlt.ne with h | h
    · exact h
    · have : (0 : ℚ) < 2 ^ (-53 : ℤ) := by positivity
      linarith
  have hz1 : (2 : ℚ) ^ (-53 : ℤ) ≤ rnd (1 - q / 2 ^ 32) := by
    apply le_rnd_of_le h53
    push_cast; linarith
  have hz2 : rnd (1 - q / 2 ^ 32) ≤ 127 / 128 := by
    have e : rnd ((127 / 128 : ℚ)) = 127 / 128 := by
      have := rnd_of_int_mul (K := ℚ) (m := 127) (e := -7) (by norm_num) (by norm_num)
      norm_num at this ⊢; exact this
    apply rnd_le_of_le e
    push_cast; linarith
  have hzr : rnd (rnd (1 - q / 2 ^ 32)) = rnd (1 - q / 2 ^ 32) := rnd_rnd _
  generalize rnd (1 - q / 2 ^ 32) = z at hz1 hz2 hzr ⊢
  have hz0 : 0 < z := lt_of_lt_of_le (by positivity) hz1
  obtain ⟨y, hy1, hy2⟩ := hln.pos z hzr hz0 (lt_of_le_of_lt (le_trans hz2 (by norm_num : (127 / 128 : ℚ) ≤ 1))
    (one_lt_pow₀ (by norm_num) (by norm_num)))
  have hzR0 : (0 : ℝ) < z := by exact_mod_cast hz0
  have hzR1 : (z : ℝ) < 1 := by
    have : z < 1 := by linarith
    exact_mod_cast this
  have hl0 : Real.log z < 0 := Real.log_neg hzR0 hzR1
  have hl1 : -53 ≤ Real.log z := by
    have h3 : (1 / 2 : ℝ) ^ 53 ≤ z := by
      have : (1 / 2 : ℚ) ^ 53 ≤ z := le_trans (by norm_num) hz1
      have := (Rat.cast_le (K := ℝ)).2 this
      push_cast at this; exact this
    have h4 := Real.log_le_log (by positivity) h3
    rw [Real.log_pow, one_div, Real.log_inv] at h4
    have := Real.log_two_lt_d9
    push_cast at h4
    linarith
  rw [abs_of_neg hl0] at hy2
  obtain ⟨g1, g2⟩ := abs_le.1 hy2
  have hy0 : (y : ℝ) < 0 := by linarith
  have hyl : (-100 : ℝ) ≤ y := by linarith
  have hy0' : y < 0 := by exact_mod_cast hy0
  have hyl' : -100 ≤ y := by exact_mod_cast hyl
  have hp : 0 < -(2 ^ 32) * y := mul_pos_of_neg_of_neg (by norm_num) hy0'
  rw [hy1]
  have hpl : |-(2 ^ 32) * y| ≤ 2 ^ 1023 := by
    apply big_le
    rw [abs_of_pos hp]
    refine le_trans (b := (2 : ℚ) ^ 32 * 100) ?_ (by norm_num)
    linarith
  have h8 : y ≤ -(1 / 256) := by
    have h5 : Real.log z ≤ z - 1 := Real.log_le_sub_one_of_pos hzR0
    have h6 : (z : ℝ) ≤ 127 / 128 := by
      have := (Rat.cast_le (K := ℝ)).2 hz2
      push_cast at this; exact this
    have h7 : (y : ℝ) ≤ -(1 / 256) := by linarith
    have : ((y : ℚ) : ℝ) ≤ ((-(1 / 256) : ℚ) : ℝ) := by push_cast; exact h7
    exact_mod_cast this
  refine ⟨y, ?_, by linarith, hyl', hz0, hz2, hy2⟩
  rw [mul_fin, round_fin hpl]
  left
  simp [hy0']

/-- The large range correction: finite and positive below `2^32`, infinite at `2^32`, NaN above. -/
theorem largeRange {ln : F64 → F64} (hln : LnSpec ln) {q : ℚ} (hq : rnd q = q)
    (h1 : 2 ^ 32 / 31 ≤ q) (h2 : q ≤ 2 ^ 100) :
    (q < 2 ^ 32 → ∃ y : ℚ, mul (mul (neg (num 1)) (num (2 ^ 32)))
      (ln (sub (num 1) (div (fin q) (num (2 ^ 32))))) = fin y ∧ 0 < y) ∧
    (q = 2 ^ 32 → mul (mul (neg (num 1)) (num (2 ^ 32)))
      (ln (sub (num 1) (div (fin q) (num (2 ^ 32))))) = inf false) ∧
    (2 ^ 32 < q → mul (mul (neg (num 1)) (num (2 ^ 32)))
      (ln (sub (num 1) (div (fin q) (num (2 ^ 32))))) = nan) := by
  have hq1 : 1 ≤ q := le_trans (by norm_num) h1
  have hd := rnd_div_two32 hq hq1
  have hx0 : 0 < q / 2 ^ 32 := div_pos (by linarith) (by norm_num)
  refine ⟨fun h => ?_, fun h => ?_, fun h => ?_⟩
  · obtain ⟨y, k1, k2, _⟩ := largeRange_lt hln hq h1 h
    exact ⟨_, k1, rnd_pos (le_trans (zpow_le_one_of_nonpos₀ (by norm_num) (by norm_num)) k2)⟩
  · rw [largeArg hq h1 h2, minus_two32, h, div_self (by norm_num), sub_self, rnd_zero, hln.zero]
    rfl
  · have h53 : rnd ((2 : ℚ) ^ (-53 : ℤ)) = 2 ^ (-53 : ℤ) := rnd_two_zpow (by norm_num)
    have hgt : 1 < q / 2 ^ 32 := by rw [one_lt_div (by norm_num)]; exact h
    have hg : 1 + 2 ^ (-53 : ℤ) ≤ q / 2 ^ 32 := by
      rcases one_gap hd hx0 hgt.ne' with h | h
      · have : (0 : ℚ) < 2 ^ (-53 : ℤ) := by positivity
        linarith
      · exact h
    have hz : rnd (1 - q / 2 ^ 32) ≤ -(2 ^ (-53 : ℤ)) := by
      apply rnd_le_of_le (by rw [rnd_neg, h53])
      push_cast; linarith
    have : (0 : ℚ) < 2 ^ (-53 : ℤ) := by positivity
    have hb : |1 - q / 2 ^ 32| ≤ 2 ^ 1023 := by
      rw [abs_le]
      have h3 : q / 2 ^ 32 ≤ 2 ^ 100 := (div_le_self (by linarith) (by norm_num)).trans h2
      have h4 : (2 : ℚ) ^ 100 ≤ 2 ^ 1023 := pow_le_pow_right₀ (by norm_num) (by norm_num)
      have h5 : (1 : ℚ) ≤ 2 ^ 1023 := one_le_pow₀ (by norm_num)
      generalize (2 : ℚ) ^ 1023 = B at *
      generalize (2 : ℚ) ^ 100 = C at *
      generalize q / 2 ^ 32 = x at *
      constructor <;> linarith
    rw [largeArg hq h1 h2, minus_two32,
      hln.neg _ (rnd_rnd _) (by linarith) (abs_lt.1 (rnd_abs_lt hb)).1]
    rfl

/-- The large range correction increases the estimate. -/
theorem largeRange_ge {ln : F64 → F64} (hln : LnSpec ln) {q : ℚ} (hq : rnd q = q)
    (h1 : 2 ^ 32 / 31 ≤ q) (h2 : q < 2 ^ 32) :
    ∃ y : ℚ, mul (mul (neg (num 1)) (num (2 ^ 32)))
        (ln (sub (num 1) (div (fin q) (num (2 ^ 32))))) = fin y ∧ q ≤ y := by
  obtain ⟨y, k1, k2, k3, k4, k5, k6⟩ := largeRange_lt hln hq h1 h2
  refine ⟨_, k1, ?_⟩
  apply le_rnd_of_le hq
  rw [Rat.cast_id]
  have hx1 : 1 / 31 ≤ q / 2 ^ 32 := by
    rw [le_div_iff₀ (by norm_num)]; linarith
  have hlt : q / 2 ^ 32 < 1 := by rw [div_lt_one (by norm_num)]; exact h2
  have hqx : q = q / 2 ^ 32 * 2 ^ 32 := by field_simp
  have herr := rnd_err' (1 - q / 2 ^ 32)
  generalize q / 2 ^ 32 = x at *
  rw [abs_of_pos (by linarith : 0 < 1 - x)] at herr
  have hz : rnd (1 - x) ≤ 1 - x + 1 / 2 ^ 52 := by
    have := (abs_le.1 herr).2
    norm_num at this ⊢
    linarith
  generalize rnd (1 - x) = z at *
  have hzR0 : (0 : ℝ) < z := by exact_mod_cast k4
  have hzR1 : (z : ℝ) ≤ 127 / 128 := by
    have := (Rat.cast_le (K := ℝ)).2 k5
    push_cast at this; exact this
  -- with u = 1 - z: -log z ≥ u + u²/2
  have hlog : (1 - z : ℝ) + (1 - z) ^ 2 / 2 ≤ -Real.log z := by
    have hu0 : (0 : ℝ) ≤ 1 - z := by linarith
    have hs := Real.hasSum_pow_div_log_of_abs_lt_one (x := 1 - z) (by
      rw [abs_of_nonneg hu0]; linarith)
    have h3 := sum_le_hasSum (Finset.range 2) (fun n _ => by positivity) hs
    simp only [Finset.sum_range_succ, Finset.sum_range_zero, sub_sub_cancel] at h3
    norm_num at h3
    linarith
  have hzx : (z : ℝ) ≤ 1 - x + 1 / 2 ^ 52 := by
    have := (Rat.cast_le (K := ℝ)).2 hz
    push_cast at this; exact this
  have hxR : (1 / 31 : ℝ) ≤ x := by
    have := (Rat.cast_le (K := ℝ)).2 hx1
    push_cast at this; exact this
  have hxR1 : (x : ℝ) < 1 := by exact_mod_cast hlt
  have hu : (x : ℝ) - 1 / 2 ^ 52 ≤ 1 - z := by linarith
  have hsq : (1 / 32 : ℝ) * (1 / 32) ≤ (1 - z) ^ 2 := by
    have : (1 / 32 : ℝ) ≤ 1 - z := by norm_num at hu ⊢; linarith
    nlinarith
  have hL : (x : ℝ) + 1 / 4096 ≤ -Real.log z := by
    norm_num at hu hsq ⊢; linarith
  have hy : (x : ℝ) ≤ -y := by
    have := (abs_le.1 k6).2
    generalize Real.log z = l at *
    have hl0 : 0 < -l := by linarith
    have : -l * (1 - 1 / 2 ^ 40) ≤ -y := by linarith
    have h5 : (x + 1 / 4096 : ℝ) * (1 - 1 / 2 ^ 40) ≤ -l * (1 - 1 / 2 ^ 40) :=
      mul_le_mul_of_nonneg_right hL (by norm_num)
    have h6 : (x : ℝ) ≤ (x + 1 / 4096 : ℝ) * (1 - 1 / 2 ^ 40) := by linarith
    linarith
  have hy' : x ≤ -y := by exact_mod_cast hy
  rw [hqx]
  linarith

/-- The large range correction is monotone up to the accuracy of the logarithm. -/
theorem largeRange_mono {ln : F64 → F64} (hln : LnSpec ln) {q q' : ℚ} (hq : rnd q = q)
    (hq' : rnd q' = q') (h1 : 2 ^ 32 / 31 ≤ q) (h2 : q ≤ q') (h3 : q' < 2 ^ 32) :
    ∃ y y' : ℚ, mul (mul (neg (num 1)) (num (2 ^ 32)))
        (ln (sub (num 1) (div (fin q) (num (2 ^ 32))))) = fin y ∧
      mul (mul (neg (num 1)) (num (2 ^ 32)))
        (ln (sub (num 1) (div (fin q') (num (2 ^ 32))))) = fin y' ∧ y ≤ y' * (1 + 1 / 2 ^ 37) := by
  obtain ⟨y, k1, k2, k3, k4, k5, k6⟩ := largeRange_lt hln hq h1 (lt_of_le_of_lt h2 h3)
  obtain ⟨y', l1, l2, l3, l4, l5, l6⟩ := largeRange_lt hln hq' (le_trans h1 h2) h3
  refine ⟨_, _, k1, l1, ?_⟩
  have hzz : rnd (1 - q' / 2 ^ 32) ≤ rnd (1 - q / 2 ^ 32) := by
    apply rnd_mono
    have : q / 2 ^ 32 ≤ q' / 2 ^ 32 := div_le_div_of_nonneg_right h2 (by norm_num)
    linarith
  generalize rnd (1 - q / 2 ^ 32) = z at *
  generalize rnd (1 - q' / 2 ^ 32) = z' at *
  have hlog : Real.log z' ≤ Real.log z :=
    Real.log_le_log (by exact_mod_cast l4) (by exact_mod_cast hzz)
  have hy : (-y : ℝ) ≤ -y' * (1 + 1 / 2 ^ 38) := by
    have a1 := (abs_le.1 k6).1
    have a2 := (abs_le.1 l6).2
    generalize Real.log z = l at *
    generalize Real.log z' = l' at *
    have hy0 : (0 : ℝ) < -y' := by
      have : 0 < -y' := by
        by_contra hc
        have : -(2 ^ 32) * y' ≤ 0 := by linarith
        linarith
      exact_mod_cast this
    have b1 : (-y : ℝ) ≤ -l * (1 + 1 / 2 ^ 40) := by linarith
    have b2 : -l' * (1 - 1 / 2 ^ 40) ≤ (-y' : ℝ) := by linarith
    have b3 : -l * (1 + 1 / 2 ^ 40) ≤ -l' * (1 + 1 / 2 ^ 40) :=
      mul_le_mul_of_nonneg_right (by linarith) (by norm_num)
    have b4 : -l' * (1 - 1 / 2 ^ 40) * (1 + 1 / 2 ^ 38) ≤ -y' * (1 + 1 / 2 ^ 38) :=
      mul_le_mul_of_nonneg_right b2 (by norm_num)
    have b5 : -l' * (1 + 1 / 2 ^ 40) ≤ -l' * (1 - 1 / 2 ^ 40) * (1 + 1 / 2 ^ 38) := by
      rw [mul_assoc]
      apply mul_le_mul_of_nonneg_left (by norm_num)
      by_contra hc
      rw [not_le] at hc
      have : -l' * (1 - 1 / 2 ^ 40) < 0 := mul_neg_of_neg_of_pos hc (by norm_num)
      -- then y' would be positive
      have a3 := (abs_le.1 l6).1
      linarith
    linarith
  have hy' : -y ≤ -y' * (1 + 1 / 2 ^ 38) := by
    have : ((-y : ℚ) : ℝ) ≤ ((-y' * (1 + 1 / 2 ^ 38) : ℚ) : ℝ) := by push_cast; exact hy
    exact_mod_cast this
  have e1 := (abs_le.1 (rnd_err' (-(2 ^ 32) * y))).2
  have e2 := (abs_le.1 (rnd_err' (-(2 ^ 32) * y'))).1
  rw [abs_of_pos (by linarith)] at e1 e2
  have c : -(2 ^ 32) * y ≤ -(2 ^ 32) * y' * (1 + 1 / 2 ^ 38) := by linarith
  generalize rnd (-(2 ^ 32) * y) = r at *
  generalize rnd (-(2 ^ 32) * y') = r' at *
  generalize -(2 ^ 32) * y = u at *
  generalize -(2 ^ 32) * y' = u' at *
  have : (1 : ℚ) / 2 ^ 100 ≤ u' * (1 / 2 ^ 100) := by linarith
  norm_num at e1 e2 c this ⊢
  linarith

/-- The value of the estimate of the original HyperLogLog. -/
theorem pfDense_value {ln : F64 → F64} (hln : LnSpec ln) {p : Nat} (hp1 : 4 ≤ p) (hp2 : p ≤ 16)
    {M : List Nat} (hM : Regs p M) :
    (rawQ p (hsum 0 M) < 2 ^ 32 → ∃ y : ℚ, pfDense ln p M = fin y ∧ 0 ≤ y ∧
      (M.count 0 < 2 ^ p → 0 < y)) ∧
    (rawQ p (hsum 0 M) = 2 ^ 32 → pfDense ln p M = inf false) ∧
    (2 ^ 32 < rawQ p (hsum 0 M) → pfDense ln p M = nan) := by
  have h18 : 2 ^ p ≤ 2 ^ 18 := Nat.pow_le_pow_right (by norm_num) (by omega)
  have hcl : M.count 0 ≤ 2 ^ p := by rw [← hM.length]; exact List.count_le_length
  obtain ⟨hr1, hr2⟩ := hM.raw_bounds hp1 (by omega)
  obtain ⟨_, ha1, _⟩ := alpha_facts hp1 (by omega : p ≤ 18)
  obtain ⟨t, ht, ht1, ht2⟩ := pf_large
  have hm18 : (2 : ℚ) ^ p ≤ 2 ^ 16 := pow_le_pow_right₀ (by norm_num) hp2
  have hrr : rnd (rawQ p (hsum 0 M)) = rawQ p (hsum 0 M) := rnd_rnd _
  have hr0 : 0 < rawQ p (hsum 0 M) := by
    have hm : (1 : ℚ) ≤ 2 ^ p := one_le_pow₀ (by norm_num)
    norm_num at hr1
    nlinarith
  have hun : pfDense ln p M =
      if le (fin (rawQ p (hsum 0 M))) (fin (5 / 2 * 2 ^ p)) = true ∧ M.count 0 ≠ 0 then
        linear ln (2 ^ p) (M.count 0)
      else if gt (fin (rawQ p (hsum 0 M))) (fin t) = true then
        mul (mul (neg (num 1)) (num (2 ^ 32)))
          (ln (sub (num 1) (div (fin (rawQ p (hsum 0 M))) (num (2 ^ 32)))))
      else fin (rawQ p (hsum 0 M)) := by
    rw [pfDense, hM.raw_eq hp1 (by omega), pf_threshold hp1 (by omega), ht]
  rw [hun]
  generalize rawQ p (hsum 0 M) = q at *
  by_cases hl : le (fin q) (fin (5 / 2 * 2 ^ p)) = true ∧ M.count 0 ≠ 0
  · rw [if_pos hl]
    have hq : q ≤ 2 ^ 18 := by
      have := (le_fin _ _).1 hl.1
      norm_num at hm18 this ⊢; linarith
    have hq' : q < 2 ^ 32 := lt_of_le_of_lt hq (by norm_num)
    refine ⟨fun _ => ?_, fun h => absurd h hq'.ne, fun h => absurd h hq'.not_gt⟩
    rcases Nat.lt_or_ge (M.count 0) (2 ^ p) with h | h
    · obtain ⟨y, h1, h2⟩ := linear_pos hln (Nat.pos_of_ne_zero hl.2) h (by omega)
      exact ⟨y, h1, by linarith, fun _ => by linarith⟩
    · have : M.count 0 = 2 ^ p := le_antisymm hcl h
      rw [this, linear_self hln (by positivity) (by omega)]
      exact ⟨0, rfl, le_rfl, fun h => absurd h (lt_irrefl _)⟩
  · rw [if_neg hl]
    by_cases hg : gt (fin q) (fin t) = true
    · rw [if_pos hg]
      have hqt := (gt_fin _ _).1 hg
      obtain ⟨k1, k2, k3⟩ := largeRange hln hrr (by linarith) hr2
      refine ⟨fun h => ?_, k2, k3⟩
      obtain ⟨y, h1, h2⟩ := k1 h
      exact ⟨y, h1, h2.le, fun _ => h2⟩
    · rw [if_neg hg]
      have hqt : q ≤ t := by
        by_contra hc
        exact hg ((gt_fin _ _).2 (not_le.1 hc))
      have hq' : q < 2 ^ 32 := by norm_num at ht2 ⊢; linarith
      exact ⟨fun _ => ⟨q, rfl, hr0.le, fun _ => hr0⟩, fun h => absurd h hq'.ne,
        fun h => absurd h hq'.not_gt⟩

/-- Registers that are all zero give 0. -/
theorem pfDense_zero {ln : F64 → F64} (hln : LnSpec ln) {p : Nat} (hp1 : 4 ≤ p) (hp2 : p ≤ 16)
    {M : List Nat} (hM : Regs p M) (h0 : M.count 0 = 2 ^ p) : pfDense ln p M = fin 0 := by
  have h18 : 2 ^ p ≤ 2 ^ 18 := Nat.pow_le_pow_right (by norm_num) (by omega)
  have hrep : M = List.replicate (2 ^ p) 0 := by
    rw [List.eq_replicate_iff]
    refine ⟨hM.length, ?_⟩
    have : M.count 0 = M.length := by rw [h0, hM.length]
    intro b hb
    exact ((List.count_eq_length.1 this) b hb).symm
  have hx : hsum 0 M = 2 ^ p := by
    have h := hsum_exact (k := 0) (by norm_num) M 0 0 (by
      intro r hr; rw [hrep] at hr; rw [List.eq_of_mem_replicate hr]) (by norm_num)
      (by rw [hM.length]; omega)
    simp only [Nat.cast_zero, zero_mul, zero_add] at h
    rw [h, hrep, hexact]
    simp
  obtain ⟨_, ha1, ha2⟩ := alpha_facts hp1 (by omega : p ≤ 18)
  have hm : (1 : ℚ) ≤ 2 ^ p := one_le_pow₀ (by norm_num)
  have hraw : rawQ p (hsum 0 M) ≤ 2 ^ p := by
    rw [hx, rawQ]
    have hp : rnd ((2 : ℚ) ^ p) = 2 ^ p := by
      have := rnd_natCast (K := ℚ) (n := 2 ^ p) (by omega)
      push_cast at this; exact this
    apply rnd_le_of_le hp
    rw [Rat.cast_id, div_le_iff₀ (by linarith)]
    have hpp : rnd ((2 : ℚ) ^ p * 2 ^ p) = 2 ^ p * 2 ^ p := by
      have hb : 2 ^ p * 2 ^ p ≤ 2 ^ 18 * 2 ^ 18 := Nat.mul_le_mul h18 h18
      have := rnd_natCast (K := ℚ) (n := 2 ^ p * 2 ^ p) (by omega)
      push_cast at this; exact this
    apply rnd_le_of_le hpp
    rw [Rat.cast_id]
    nlinarith
  rw [pfDense, hM.raw_eq hp1 (by omega), pf_threshold hp1 (by omega), h0, linear_self hln (by positivity) (by omega)]
  apply if_pos
  exact ⟨(le_fin _ _).2 (by linarith), by positivity⟩

theorem hexact_ge {K : Nat} : ∀ {M : List Nat}, (∀ r ∈ M, r ≤ K) →
    ((M.length + M.countP (· < K) : ℕ) : ℚ) / 2 ^ K ≤ hexact M
  | [], _ => by simp [hexact]
  | r :: M, h => by
    have ih := hexact_ge (K := K) (M := M) (fun r hr => h r (by simp [hr]))
    have hr : r ≤ K := h r (by simp)
    rw [hexact_cons, List.countP_cons, List.length_cons]
    have hK : (0 : ℚ) < 2 ^ K := by positivity
    by_cases hlt : r < K
    · have h1 : (2 : ℚ) / 2 ^ K ≤ 1 / 2 ^ r := by
        rw [div_le_div_iff₀ hK (by positivity), one_mul]
        calc (2 : ℚ) * 2 ^ r = 2 ^ (r + 1) := by rw [pow_succ]; ring
          _ ≤ 2 ^ K := pow_le_pow_right₀ (by norm_num) hlt
      have e : ((M.length + 1 + (M.countP (· < K) + if decide (r < K) = true then 1 else 0) : ℕ) : ℚ) / 2 ^ K
          = 2 / 2 ^ K + ((M.length + M.countP (· < K) : ℕ) : ℚ) / 2 ^ K := by
        rw [if_pos (by simpa using hlt)]
        push_cast; ring
      rw [e]; linarith
    · have h1 : (1 : ℚ) / 2 ^ K ≤ 1 / 2 ^ r := by
        rw [div_le_div_iff₀ hK (by positivity), one_mul, one_mul]
        exact pow_le_pow_right₀ (by norm_num) hr
      have e : ((M.length + 1 + (M.countP (· < K) + if decide (r < K) = true then 1 else 0) : ℕ) : ℚ) / 2 ^ K
          = 1 / 2 ^ K + ((M.length + M.countP (· < K) : ℕ) : ℚ) / 2 ^ K := by
        rw [if_neg (by simpa using hlt)]
        push_cast; ring
      rw [e]; linarith

/-- The registers of the original HyperLogLog are summed without error, in any order. -/
theorem pf_hsum_exact {p : Nat} (hp1 : 4 ≤ p) (hp2 : p ≤ 16) {M : List Nat} (hl : M.length = 2 ^ p)
    (hM : ∀ r ∈ M, r ≤ 33 - p) : hsum 0 M = hexact M := by
  have h := hsum_exact (k := 33 - p) (by omega) M 0 0 hM (by norm_num) (by
    rw [hl, zero_add, ← pow_add]; exact Nat.pow_le_pow_right (by norm_num) (by omega))
  simpa using h

theorem rawNum_le {p : Nat} (hp1 : 4 ≤ p) (hp2 : p ≤ 18) :
    rnd (alphaQ p * (2 ^ p * 2 ^ p)) ≤ 187 / 256 * (2 ^ p * 2 ^ p) := by
  obtain ⟨_, ha1, ha2⟩ := alpha_facts hp1 hp2
  have e : rnd (187 / 256 * ((2 : ℚ) ^ p * 2 ^ p)) = 187 / 256 * (2 ^ p * 2 ^ p) := by
    have h := rnd_of_int_mul (K := ℚ) (m := 187) (e := (p + p : ℕ) - 8) (by norm_num) (by omega)
    have e2 : ((187 : ℤ) : ℚ) * 2 ^ (((p + p : ℕ) : ℤ) - 8) = 187 / 256 * (2 ^ p * 2 ^ p) := by
      rw [zpow_sub₀ (by norm_num), zpow_natCast, pow_add]
      push_cast
      norm_num
      ring
    rw [e2] at h; exact h
  apply rnd_le_of_le e
  rw [Rat.cast_id]
  have : (0 : ℚ) < 2 ^ p * 2 ^ p := by positivity
  nlinarith

/-- If at least half of the registers are below the maximal rank then the raw estimate is
below `2^32`. -/
theorem pf_raw_lt {p : Nat} (hp1 : 4 ≤ p) (hp2 : p ≤ 16) {M : List Nat} (hl : M.length = 2 ^ p)
    (hM : ∀ r ∈ M, r ≤ 33 - p) (hh : 2 ^ p ≤ 2 * M.countP (· < 33 - p)) :
    rawQ p (hsum 0 M) < 2 ^ 32 := by
  obtain ⟨_, ha1, ha2⟩ := alpha_facts hp1 (by omega : p ≤ 18)
  have hge := hexact_ge hM
  rw [hl] at hge
  rw [pf_hsum_exact hp1 hp2 hl hM]
  have hm : (1 : ℚ) ≤ 2 ^ p := one_le_pow₀ (by norm_num)
  have hk : (1 : ℚ) ≤ 2 ^ (33 - p) := one_le_pow₀ (by norm_num)
  have hmk : (2 : ℚ) ^ p * 2 ^ (33 - p) = 2 ^ 33 := by rw [← pow_add]; congr 1; omega
  have hh' : (2 : ℚ) ^ p ≤ 2 * (M.countP (· < 33 - p) : ℕ) := by exact_mod_cast hh
  have hH : 3 / 2 * 2 ^ p / 2 ^ (33 - p) ≤ hexact M := by
    refine le_trans ?_ hge
    apply div_le_div_of_nonneg_right _ (by linarith)
    push_cast; linarith
  have hH0 : 0 < hexact M := lt_of_lt_of_le (by positivity) hH
  have hn := rawNum_le hp1 (by omega : p ≤ 18)
  have e3 : rnd ((2 : ℚ) ^ 32 * (63 / 64)) = 2 ^ 32 * (63 / 64) := by
    have h := rnd_of_int_mul (K := ℚ) (m := 63) (e := 26) (by norm_num) (by norm_num)
    norm_num at h ⊢; exact h
  have : rawQ p (hexact M) ≤ 2 ^ 32 * (63 / 64) := by
    unfold rawQ
    apply rnd_le_of_le e3
    rw [Rat.cast_id, div_le_iff₀ hH0]
    refine le_trans hn ?_
    refine le_trans ?_ (mul_le_mul_of_nonneg_left hH (by norm_num))
    rw [mul_div_assoc', le_div_iff₀ (by linarith)]
    calc 187 / 256 * ((2 : ℚ) ^ p * 2 ^ p) * 2 ^ (33 - p)
        = 187 / 256 * 2 ^ p * (2 ^ p * 2 ^ (33 - p)) := by ring
      _ ≤ 2 ^ 32 * (63 / 64) * (3 / 2 * 2 ^ p) := by rw [hmk]; nlinarith
  refine lt_of_le_of_lt this ?_
  norm_num

end Spec
end HLL
