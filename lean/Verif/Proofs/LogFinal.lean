import Verif.Proofs.LogKernel

/-!
# Accuracy of `src/log.rs`
-/

namespace HLL.Log
open F64 LogPoly

theorem ofInt_eq {k : ℤ} (h : |k| ≤ 2000) : ofInt k = fin k ∧ rnd (k : ℚ) = k := by
  have hr : rnd (k : ℚ) = k := by
    have := rnd_of_int_mul (K := ℚ) (m := k) (e := 0) (by omega) (by norm_num)
    simpa using this
  refine ⟨?_, hr⟩
  unfold ofInt
  rw [round_eq_fin _ (Or.inl rfl), hr]
  rw [hr]
  have h1 : |(k : ℚ)| ≤ 2000 := by exact_mod_cast h
  calc |(k : ℚ)| ≤ 2000 := h1
    _ < 2 ^ 11 := by norm_num
    _ ≤ 2 ^ 1024 := pow_le_pow_right₀ (by norm_num) (by norm_num)

theorem le_big {a : ℚ} (h : |a| ≤ 4000) : |a| ≤ 2 ^ 1023 :=
  calc |a| ≤ 4000 := h
    _ ≤ 2 ^ 12 := by norm_num
    _ ≤ 2 ^ 1023 := pow_le_pow_right₀ (by norm_num) (by norm_num)

theorem poly_bound {z : ℚ} (h0 : 0 ≤ z) (h1 : z ≤ 2945 / 100000) :
    0 ≤ poly z ∧ poly z ≤ 205 / 10000 := by
  have key : ∀ A : ℚ, 0 ≤ A → A ≤ 1 → 0 ≤ z * A ∧ z * A ≤ 3 / 100 := fun A a0 a1 =>
    ⟨mul_nonneg h0 a0, by nlinarith⟩
  simp only [poly, lg, eval, Rat.cast_id]
  norm_num only
  rw [mul_zero, add_zero]
  have k7 := key (1332903234475153 / 9007199254740992) (by norm_num) (by norm_num)
  have k6 := key (5517391500461727 / 36028797018963968 + z * (1332903234475153 / 9007199254740992))
    (by linarith) (by linarith)
  generalize z * (5517391500461727 / 36028797018963968 + z * (1332903234475153 / 9007199254740992)) = B6 at *
  have k5 := key (3275661152453103 / 18014398509481984 + B6) (by linarith) (by linarith)
  generalize z * (3275661152453103 / 18014398509481984 + B6) = B5 at *
  have k4 := key (8006390766270639 / 36028797018963968 + B5) (by linarith) (by linarith)
  generalize z * (8006390766270639 / 36028797018963968 + B5) = B4 at *
  have k3 := key (5146971033736025 / 18014398509481984 + B4) (by linarith) (by linarith)
  generalize z * (5146971033736025 / 18014398509481984 + B4) = B3 at *
  have k2 : 0 ≤ z * (1801439850921601 / 4503599627370496 + B3) ∧
      z * (1801439850921601 / 4503599627370496 + B3) ≤ 15 / 1000 :=
    ⟨mul_nonneg h0 (by linarith), by nlinarith⟩
  generalize z * (1801439850921601 / 4503599627370496 + B3) = B2 at *
  exact ⟨mul_nonneg h0 (by linarith), by nlinarith⟩

/-- `ln 2` as the code has it. -/
def ln2 : ℚ := 2977044471 / 2 ^ 32 + 7382048951581814 / 2 ^ 85

/-- Rounding error of the polynomial part. -/
theorem kernel_err {x : ℚ} {k : ℤ} (hk : |k| ≤ 2000) (h1 : splitPoint / 2 ≤ x) (h2 : x < splitPoint)
    (h3 : ∃ n : ℤ, x = n * 2 ^ (-53 : ℤ)) {f s T : ℚ} (hf : f = x - 1) (hs : s = f / (2 + f))
    (hT : T = k * ln2 + (f - f ^ 2 / 2 + s * (f ^ 2 / 2 + poly (s ^ 2)))) :
    ∃ y, Is (kernel (fin x) k) y ∧ rnd y = y ∧
      |y - T| ≤ (|T| + 3 * |f| + |(k : ℚ)| / 10 ^ 8) / 2 ^ 53 := by
  obtain ⟨V, H, hker, ⟨Va, v1, v2, v3, -, -⟩, ⟨Ha, w1, w2, w3, -, -⟩⟩ := kernel_parts k h1 h2 h3 hf hs
  obtain ⟨_, f2, f3, f4, _⟩ := f_facts h1 h2 h3
  rw [← hf] at f2 f3 f4
  obtain ⟨s1, s2⟩ := s_facts f3 f4
  rw [← hs] at s1 s2
  obtain ⟨-, -, -, -, -, -, -, c8, c9⟩ := consts
  obtain ⟨i1, i2⟩ := ofInt_eq hk
  have hg0 := abs_nonneg f
  have hκ0 := abs_nonneg (k : ℚ)
  have hκ1 : |(k : ℚ)| ≤ 2000 := by exact_mod_cast hk
  have hg1 : |f| ≤ 41422 / 100000 := abs_le.2 ⟨by linarith, f4⟩
  -- sizes
  have hf2 : f ^ 2 / 2 ≤ 2072 / 10000 * |f| := by
    rw [← sq_abs]; nlinarith
  have hf2' : f ^ 2 / 2 ≤ 859 / 10000 := by
    rw [← sq_abs]; nlinarith
  have hf20 : 0 ≤ f ^ 2 / 2 := by positivity
  have hz : s ^ 2 ≤ 2945 / 100000 := by
    rw [← sq_abs]
    calc |s| ^ 2 ≤ (1716 / 10000) ^ 2 := pow_le_pow_left₀ (abs_nonneg s) s1.le 2
      _ ≤ _ := by norm_num
  obtain ⟨p0, p1⟩ := poly_bound (sq_nonneg s) hz
  have hV0 : |s * (f ^ 2 / 2 + poly (s ^ 2))| ≤ 64 / 1000 * |f| := by
    rw [abs_mul, abs_of_nonneg (add_nonneg hf20 p0)]
    calc |s| * (f ^ 2 / 2 + poly (s ^ 2)) ≤ 587 / 1000 * |f| * (1064 / 10000) :=
          mul_le_mul s2 (by linarith) (by linarith) (by positivity)
      _ ≤ _ := by linarith
  rw [abs_of_nonneg hf20] at w3
  generalize hV : s * (f ^ 2 / 2 + poly (s ^ 2)) = V0 at *
  generalize hH : f ^ 2 / 2 = H0 at *
  -- the products with k
  have hlo : |(k : ℚ) * (7382048951581814 / 2 ^ 85)| ≤ |(k : ℚ)| * (2 / 10 ^ 10) := by
    rw [abs_mul]
    refine mul_le_mul_of_nonneg_left ?_ hκ0
    rw [abs_of_pos (by norm_num)]; norm_num
  have jlo : Is (mul (ofInt k) LN2_LO) (rnd ((k : ℚ) * (7382048951581814 / 2 ^ 85))) := by
    rw [i1, c9]
    exact (Is.fin _).mul (Is.fin _) (le_big (by linarith))
  have elo : |rnd ((k : ℚ) * (7382048951581814 / 2 ^ 85)) - k * (7382048951581814 / 2 ^ 85)| ≤
      |(k : ℚ) * (7382048951581814 / 2 ^ 85)| / 2 ^ 53 := by
    rcases eq_or_ne k 0 with rfl | hk0
    · simp [rnd_zero]
    · have := abs_rnd_sub_le_rel (x := (k : ℚ) * (7382048951581814 / 2 ^ 85)) (by
        rw [abs_mul]
        have e1 : (1 : ℚ) ≤ |(k : ℚ)| := by exact_mod_cast Int.one_le_abs hk0
        have e2 : (2 : ℚ) ^ (-1022 : ℤ) ≤ 2 ^ (-40 : ℤ) := zpow_le_zpow_right₀ (by norm_num) (by norm_num)
        have e3 : (2 : ℚ) ^ (-40 : ℤ) ≤ |(7382048951581814 / 2 ^ 85 : ℚ)| := by
          rw [abs_of_pos (by norm_num)]; norm_num
        calc _ ≤ |(7382048951581814 / 2 ^ 85 : ℚ)| := e2.trans e3
          _ = 1 * |(7382048951581814 / 2 ^ 85 : ℚ)| := (one_mul _).symm
          _ ≤ _ := mul_le_mul_of_nonneg_right e1 (abs_nonneg _))
      simpa using this
  have hhi : rnd ((k : ℚ) * (2977044471 / 2 ^ 32)) = k * (2977044471 / 2 ^ 32) := by
    have e1 : (k : ℚ) * (2977044471 / 2 ^ 32) = ((k * 2977044471 : ℤ) : ℚ) * 2 ^ (-32 : ℤ) := by
      push_cast; norm_num; ring
    rw [e1]
    refine rnd_of_int_mul ?_ (by norm_num)
    rw [abs_mul]
    calc |k| * |2977044471| ≤ 2000 * |2977044471| := mul_le_mul_of_nonneg_right hk (abs_nonneg _)
      _ ≤ _ := by norm_num
  have jhi : Is (mul (ofInt k) LN2_HI) ((k : ℚ) * (2977044471 / 2 ^ 32)) := by
    rw [i1, c8, ← hhi]
    refine (Is.fin _).mul (Is.fin _) (le_big ?_)
    rw [abs_mul]
    calc |(k : ℚ)| * |2977044471 / 2 ^ 32| ≤ 2000 * 1 :=
          mul_le_mul hκ1 (by rw [abs_of_pos] <;> norm_num) (abs_nonneg _) (by norm_num)
      _ ≤ _ := by norm_num
  have hHIb : |(k : ℚ) * (2977044471 / 2 ^ 32)| ≤ 2000 := by
    rw [abs_mul]
    calc |(k : ℚ)| * |2977044471 / 2 ^ 32| ≤ 2000 * 1 :=
          mul_le_mul hκ1 (by rw [abs_of_pos] <;> norm_num) (abs_nonneg _) (by norm_num)
      _ ≤ _ := by norm_num
  have hT' : T = V0 + k * (7382048951581814 / 2 ^ 85) - H0 + f + k * (2977044471 / 2 ^ 32) := by
    rw [hT, ln2]; ring
  have dLo : rnd (rnd ((k : ℚ) * (7382048951581814 / 2 ^ 85))) = rnd ((k : ℚ) * (7382048951581814 / 2 ^ 85)) :=
    rnd_rnd _
  generalize rnd ((k : ℚ) * (7382048951581814 / 2 ^ 85)) = La at *
  generalize (k : ℚ) * (7382048951581814 / 2 ^ 85) = L0 at *
  generalize (k : ℚ) * (2977044471 / 2 ^ 32) = K at *
  generalize |(k : ℚ)| = κ at *
  -- the four additions
  have bV : |Va| ≤ 65 / 1000 * |f| := by
    have := abs_add_le V0 (Va - V0); rw [add_sub_cancel] at this
    norm_num at v3; linarith
  have bL : |La| ≤ κ * (3 / 10 ^ 10) := by
    have := abs_add_le L0 (La - L0); rw [add_sub_cancel] at this
    norm_num at elo hlo ⊢; linarith
  have bH : |Ha| ≤ 208 / 1000 * |f| := by
    have := abs_add_le H0 (Ha - H0); rw [add_sub_cancel, abs_of_nonneg hf20] at this
    norm_num at w3; linarith
  have b1 : |Va + La| ≤ 65 / 1000 * |f| + κ * (3 / 10 ^ 10) := (abs_add_le _ _).trans (add_le_add bV bL)
  have r1 := rnd_add_err v2 dLo
  have j1 := v1.add jlo (le_big (by norm_num at b1 ⊢; linarith))
  have d1 : rnd (rnd (Va + La)) = rnd (Va + La) := rnd_rnd _
  generalize rnd (Va + La) = a1 at *
  have c1 : |a1| ≤ 66 / 1000 * |f| + κ * (4 / 10 ^ 10) := by
    have := abs_add_le (Va + La) (a1 - (Va + La)); rw [add_sub_cancel] at this
    norm_num at r1 b1 ⊢; linarith
  have b2 : |a1 - Ha| ≤ 274 / 1000 * |f| + κ * (4 / 10 ^ 10) := by
    have := abs_sub a1 Ha
    linarith
  have r2 := rnd_sub_err d1 w2
  have j2 := j1.sub w1 (le_big (by norm_num at b2 ⊢; linarith))
  have d2 : rnd (rnd (a1 - Ha)) = rnd (a1 - Ha) := rnd_rnd _
  generalize rnd (a1 - Ha) = a2 at *
  have c2 : |a2| ≤ 275 / 1000 * |f| + κ * (5 / 10 ^ 10) := by
    have := abs_add_le (a1 - Ha) (a2 - (a1 - Ha)); rw [add_sub_cancel] at this
    norm_num at r2 b2 ⊢; linarith
  have b3 : |a2 + f| ≤ 1275 / 1000 * |f| + κ * (5 / 10 ^ 10) := by
    have := abs_add_le a2 f
    linarith
  have r3 := rnd_add_err d2 f2
  have j3 := j2.add (Is.fin f) (le_big (by norm_num at b3 ⊢; linarith))
  have d3 : rnd (rnd (a2 + f)) = rnd (a2 + f) := rnd_rnd _
  generalize rnd (a2 + f) = a3 at *
  have c3 : |a3| ≤ 1276 / 1000 * |f| + κ * (6 / 10 ^ 10) := by
    have := abs_add_le (a2 + f) (a3 - (a2 + f)); rw [add_sub_cancel] at this
    norm_num at r3 b3 ⊢; linarith
  have j4 := j3.add jhi (le_big (by
    have := abs_add_le a3 K
    norm_num at c3 ⊢; linarith))
  have r4 := rnd_add_err d3 hhi
  have d4 : rnd (rnd (a3 + K)) = rnd (a3 + K) := rnd_rnd _
  rw [← hker] at j4
  generalize rnd (a3 + K) = y at *
  refine ⟨y, j4, d4, ?_⟩
  -- total
  have hD : |a3 + K - T| ≤ (295 / 100 * |f| + κ * (2 / 10 ^ 9)) / 2 ^ 53 := by
    have e : a3 + K - T = (a3 - (a2 + f)) + (a2 - (a1 - Ha)) + (a1 - (Va + La)) + (Va - V0) +
        (La - L0) + -(Ha - H0) := by rw [hT']; ring
    rw [e]
    have t1 := abs_add_le ((a3 - (a2 + f)) + (a2 - (a1 - Ha)) + (a1 - (Va + La)) + (Va - V0) + (La - L0))
      (-(Ha - H0))
    have t2 := abs_add_le ((a3 - (a2 + f)) + (a2 - (a1 - Ha)) + (a1 - (Va + La)) + (Va - V0)) (La - L0)
    have t3 := abs_add_le ((a3 - (a2 + f)) + (a2 - (a1 - Ha)) + (a1 - (Va + La))) (Va - V0)
    have t4 := abs_add_le ((a3 - (a2 + f)) + (a2 - (a1 - Ha))) (a1 - (Va + La))
    have t5 := abs_add_le (a3 - (a2 + f)) (a2 - (a1 - Ha))
    rw [abs_neg] at t1
    refine ((((t1.trans (add_le_add_left t2 _)).trans (add_le_add_left (add_le_add_left t3 _) _)).trans
      (add_le_add_left (add_le_add_left (add_le_add_left t4 _) _) _)).trans
      (add_le_add_left (add_le_add_left (add_le_add_left (add_le_add_left t5 _) _) _) _)).trans ?_
    clear t1 t2 t3 t4 t5 e
    norm_num at r1 r2 r3 v3 w3 elo b1 b2 b3 hlo ⊢
    linarith
  have t6 : |y - T| ≤ |y - (a3 + K)| + |a3 + K - T| := abs_sub_le _ _ _
  have t7 : |a3 + K| ≤ |T| + |a3 + K - T| := by
    have := abs_add_le T (a3 + K - T); rwa [add_sub_cancel] at this
  norm_num at r4 hD ⊢
  linarith

theorem cast_poly (z : ℚ) : ((poly z : ℚ) : ℝ) = poly (z : ℝ) := by
  simp only [poly, lg, eval]
  push_cast
  rfl

/-- The exact value of the formula evaluated by the code is the logarithm up to the error of the
polynomial and of the two constants for `ln 2`. -/
theorem formula_err {q x : ℚ} {k : ℤ} (hx0 : 0 < x) (hq : q = 2 ^ k * x) {f s T : ℚ} (hf : f = x - 1)
    (hs : s = f / (2 + f)) (hs1 : |s| < 1716 / 10000)
    (hT : T = k * ln2 + (f - f ^ 2 / 2 + s * (f ^ 2 / 2 + poly (s ^ 2)))) :
    |(T : ℝ) - Real.log q| ≤ |(s : ℝ)| * (2530 / 10 ^ 21) + |(k : ℝ)| * (1 / 10 ^ 22) := by
  have hf1 : (0 : ℚ) < 1 + f := by linarith
  have hf2 : (0 : ℚ) < 2 + f := by linarith
  have e1 : f - f ^ 2 / 2 + s * (f ^ 2 / 2 + poly (s ^ 2)) = s * (2 + poly (s ^ 2)) := by
    have : s * (2 + f) = f := by rw [hs]; field_simp
    linear_combination (1 - f / 2) * (-this) 
  have hsr : |(s : ℝ)| < 1716 / 10000 := by
    have := (Rat.cast_lt (K := ℝ)).2 hs1
    push_cast at this
    exact this
  have a1 := poly_err hsr
  have hsr' := abs_lt.1 hsr
  have e2 : Real.log (1 + (s : ℝ)) - Real.log (1 - s) = Real.log x := by
    rw [← Real.log_div (by linarith) (by linarith)]
    congr 1
    have h1 : (1 + s) / (1 - s) = x := by
      have h2 : (1 : ℚ) - s ≠ 0 := by
        have := (abs_lt.1 hs1).2
        linarith
      rw [div_eq_iff h2, hs, hf]
      have : (2 : ℚ) + (x - 1) ≠ 0 := by rw [← hf]; exact hf2.ne'
      field_simp
      ring
    rw [← h1]; push_cast; rfl
  have e3 : Real.log q = k * Real.log 2 + Real.log x := by
    rw [hq]
    push_cast
    rw [Real.log_mul (by positivity) (by exact_mod_cast hx0.ne'), Real.log_zpow]
  rw [e2] at a1
  have a2 := ln2_err
  have e4 : (T : ℝ) - Real.log q = ((s : ℝ) * (2 + poly ((s : ℝ) ^ 2)) - Real.log x) +
      k * (-(Real.log 2 - (2977044471 / 2 ^ 32 + 7382048951581814 / 2 ^ 85))) := by
    rw [e3, hT, e1, ln2]
    push_cast
    rw [cast_poly]
    push_cast
    ring
  rw [e4]
  refine (abs_add_le _ _).trans (add_le_add a1 ?_)
  rw [abs_mul, abs_neg]
  exact mul_le_mul_of_nonneg_left a2 (abs_nonneg _)

theorem log_splitPoint : Real.log 2 / 2 - 1 / 10 ^ 6 ≤ Real.log (splitPoint : ℚ) ∧
    Real.log (splitPoint : ℚ) ≤ Real.log 2 / 2 := by
  have hp : (0 : ℝ) < ((splitPoint : ℚ) : ℝ) := by unfold splitPoint; norm_num
  have e : 2 * Real.log (splitPoint : ℚ) = Real.log ((splitPoint : ℚ) ^ 2) := by
    rw [Real.log_pow]; norm_num
  constructor
  · have h1 : (2 : ℝ) * (1 - 1 / 10 ^ 6) ≤ ((splitPoint : ℚ) : ℝ) ^ 2 := by
      unfold splitPoint; norm_num
    have h2 := Real.log_le_log (by norm_num) h1
    rw [Real.log_mul (by norm_num) (by norm_num), ← e] at h2
    have h3 := Real.one_sub_inv_le_log_of_pos (show (0 : ℝ) < 1 - 1 / 10 ^ 6 by norm_num)
    norm_num at h2 h3 ⊢
    linarith
  · have h1 : ((splitPoint : ℚ) : ℝ) ^ 2 ≤ 2 := by unfold splitPoint; norm_num
    have h2 := Real.log_le_log (by positivity) h1
    rw [← e] at h2
    linarith

/-- How large the logarithm is compared with the reduced argument and the exponent. -/
theorem log_lower {q x : ℚ} {k : ℤ} (h1 : splitPoint / 2 ≤ x) (h2 : x < splitPoint)
    (hq : q = 2 ^ k * x) :
    |(x : ℝ) - 1| ≤ 1415 / 1000 * |Real.log q| ∧ |(k : ℝ)| ≤ 3 * |Real.log q| := by
  have hx0 : (0 : ℝ) < x := by
    have : (0 : ℚ) < splitPoint / 2 := by unfold splitPoint; norm_num
    exact_mod_cast this.trans_le h1
  have e3 : Real.log q = k * Real.log 2 + Real.log x := by
    rw [hq]
    push_cast
    rw [Real.log_mul (by positivity) hx0.ne', Real.log_zpow]
  obtain ⟨p1, p2⟩ := log_splitPoint
  have l2 : (69314718 / 10 ^ 8 : ℝ) < Real.log 2 := by
    have := (abs_le.1 ln2_err).1
    norm_num at this ⊢
    linarith
  have hxu : (x : ℝ) ≤ 141422 / 100000 := by
    have : (x : ℚ) ≤ 141422 / 100000 := h2.le.trans (by unfold splitPoint; norm_num)
    have := (Rat.cast_le (K := ℝ)).2 this
    push_cast at this; exact this
  have hxl : (70710 / 100000 : ℝ) ≤ x := by
    have : (70710 / 100000 : ℚ) ≤ x := le_trans (by unfold splitPoint; norm_num) h1
    have := (Rat.cast_le (K := ℝ)).2 this
    push_cast at this; exact this
  have b1 : Real.log x ≤ Real.log 2 / 2 :=
    (Real.log_le_log hx0 (by exact_mod_cast h2.le)).trans p2
  have b2 : -(Real.log 2 / 2 + 1 / 10 ^ 6) ≤ Real.log x := by
    have : ((splitPoint : ℚ) : ℝ) / 2 ≤ x := by
      have := (Rat.cast_le (K := ℝ)).2 h1
      push_cast at this; exact this
    have hp : (0 : ℝ) < ((splitPoint : ℚ) : ℝ) := by unfold splitPoint; norm_num
    have := Real.log_le_log (by positivity) this
    rw [Real.log_div hp.ne' (by norm_num)] at this
    linarith
  rcases eq_or_ne k 0 with rfl | hk
  · simp only [Int.cast_zero, zero_mul, zero_add] at e3
    rw [e3]
    refine ⟨?_, by simp⟩
    rcases le_total 1 (x : ℝ) with h | h
    · rw [abs_of_nonneg (by linarith), abs_of_nonneg (Real.log_nonneg h)]
      have h3 := Real.one_sub_inv_le_log_of_pos hx0
      have h4 : (x : ℝ) - 1 = x * (1 - (x : ℝ)⁻¹) := by field_simp
      rw [h4]
      have h5 : (0 : ℝ) ≤ 1 - (x : ℝ)⁻¹ := by
        have := inv_le_one_of_one_le₀ h
        linarith
      exact mul_le_mul (by linarith) h3 h5 (by norm_num)
    · rw [abs_of_nonpos (by linarith), abs_of_nonpos (Real.log_nonpos hx0.le h)]
      have h3 := Real.log_le_sub_one_of_pos hx0
      linarith
  · have hk1 : (1 : ℝ) ≤ |(k : ℝ)| := by exact_mod_cast Int.one_le_abs hk
    have t1 : |(k : ℝ)| * Real.log 2 ≤ |Real.log q| + |Real.log x| := by
      have : |(k : ℝ)| * Real.log 2 = |Real.log q - Real.log x| := by
        rw [e3, add_sub_cancel_right, abs_mul, abs_of_pos (Real.log_pos (by norm_num))]
      rw [this]; exact abs_sub _ _
    have t2 : |Real.log x| ≤ Real.log 2 / 2 + 1 / 10 ^ 6 :=
      abs_le.2 ⟨b2, by norm_num at b1 ⊢; linarith⟩
    have t3 : |Real.log q| ≥ 3465 / 10000 * |(k : ℝ)| := by
      have : |(k : ℝ)| * Real.log 2 - Real.log 2 / 2 ≥ |(k : ℝ)| * (Real.log 2 / 2) := by nlinarith
      have : |(k : ℝ)| * (Real.log 2 / 2) ≥ |(k : ℝ)| * (34657 / 100000) :=
        mul_le_mul_of_nonneg_left (by norm_num at l2 ⊢; linarith) (by linarith)
      norm_num at t2 ⊢
      linarith
    refine ⟨?_, by linarith⟩
    have : |(x : ℝ) - 1| ≤ 41422 / 100000 := abs_le.2 ⟨by linarith, by linarith⟩
    linarith

/-- On positive finite doubles the function never panics and is within `6 · 2^-53` of the
logarithm, relatively. -/
theorem log_accurate (cfg : Cfg) (nb : U64) {q : ℚ} (hq : rnd q = q) (h0 : 0 < q) (h1 : q < 2 ^ 1024) :
    ∃ y : ℚ, log cfg nb (fin q) = .ok (fin y) ∧ rnd y = y ∧
      |(y : ℝ) - Real.log q| ≤ 6 / 2 ^ 53 * |Real.log q| := by
  rcases eq_or_ne q 1 with rfl | hne
  · exact ⟨0, log_one cfg nb, rnd_zero, by simp⟩
  obtain ⟨x, k, e1, e2, e3, e4, k1, k2, e5⟩ := log_pos cfg nb hq h0 h1 hne
  have hx0 : (0 : ℚ) < x := by
    have : (0 : ℚ) < splitPoint / 2 := by unfold splitPoint; norm_num
    exact this.trans_le e3
  obtain ⟨_, _, f3, f4, _⟩ := f_facts e3 e4 e5
  obtain ⟨s1, s2⟩ := s_facts f3 f4
  obtain ⟨y, y1, y2, y3⟩ := kernel_err (k := k) (abs_le.2 ⟨by omega, by omega⟩) e3 e4 e5 rfl rfl rfl
  have t1 := formula_err hx0 e2 rfl rfl s1 rfl
  obtain ⟨l1, l2⟩ := log_lower e3 e4 e2
  generalize (k * ln2 + (x - 1 - (x - 1) ^ 2 / 2 + (x - 1) / (2 + (x - 1)) * ((x - 1) ^ 2 / 2 +
    poly (((x - 1) / (2 + (x - 1))) ^ 2))) : ℚ) = T at *
  generalize (x - 1) / (2 + (x - 1)) = s at *
  have hL : Real.log q ≠ 0 := by
    refine Real.log_ne_zero_of_pos_of_ne_one (by exact_mod_cast h0) (by exact_mod_cast hne)
  have s2' : |(s : ℝ)| ≤ 587 / 1000 * |(x : ℝ) - 1| := by
    have := (Rat.cast_le (K := ℝ)).2 s2
    push_cast at this; exact this
  have y3' : |(y : ℝ) - T| ≤ (|(T : ℝ)| + 3 * |(x : ℝ) - 1| + |(k : ℝ)| / 10 ^ 8) / 2 ^ 53 := by
    have := (Rat.cast_le (K := ℝ)).2 y3
    push_cast at this; exact this
  have key : |(y : ℝ) - Real.log q| ≤ 6 / 2 ^ 53 * |Real.log q| := by
    have t2 : |(y : ℝ) - Real.log q| ≤ |(y : ℝ) - T| + |(T : ℝ) - Real.log q| := abs_sub_le _ _ _
    have t3 : |(T : ℝ)| ≤ |Real.log q| + |(T : ℝ) - Real.log q| := by
      have := abs_add_le (Real.log q) ((T : ℝ) - Real.log q); rwa [add_sub_cancel] at this
    norm_num at y3' t1 s2' l1 l2 ⊢
    have := abs_nonneg (Real.log q)
    linarith
  refine ⟨y, ?_, y2, key⟩
  rw [e1, y1.eq_fin]
  rintro rfl
  rw [Rat.cast_zero, zero_sub, abs_neg] at key
  have := abs_pos.2 hL
  norm_num at key
  linarith

end HLL.Log
