import Verif.Proofs.Approx

/-!
# Relative errors of sequences of floating point operations

`Near x c N M b`: the double `x` is finite and differs from `b` by at most `c` half units in the last
place; `b` is 0 or at least `2^-N` in magnitude, and at most `2^M`.
-/

namespace HLL.F64

/-- `x` approximates `b` with relative error `c * 2^-53`. -/
def Near (x : F64) (c : ℚ) (N M : ℕ) (b : ℚ) : Prop :=
  ∃ a, Is x a ∧ rnd a = a ∧ |a - b| ≤ c / 2 ^ 53 * |b| ∧ (b = 0 ∨ (1 / 2) ^ N ≤ |b|) ∧ |b| ≤ 2 ^ M

theorem two_pow_le_of {M : ℕ} (hM : M ≤ 1000) {a b : ℚ} (h : |a| ≤ 2 * |b|) (hb : |b| ≤ 2 ^ M) :
    |a| ≤ 2 ^ 1023 := by
  have h1 : (2 : ℚ) ^ M ≤ 2 ^ 1000 := pow_le_pow_right₀ (by norm_num) hM
  have h2 : (2 : ℚ) ^ 1023 = 2 * 2 ^ 1000 * 2 ^ 22 := by
    rw [← pow_succ', ← pow_add]
  have h3 : (0 : ℚ) < 2 ^ 1000 := by positivity
  generalize (2 : ℚ) ^ 1000 = B at *
  rw [h2]
  clear h2
  have : |a| ≤ 2 * B := by linarith
  linarith

/-- One more rounding. -/
theorem near_rnd {a b d : ℚ} {N M : ℕ} {x : F64} (hd : d ≤ 1000)
    (h : |a - b| ≤ d / 2 ^ 53 * |b|) (hN : b = 0 ∨ (1 / 2) ^ N ≤ |b|) (hM : |b| ≤ 2 ^ M)
    (hN' : N ≤ 1000) (hM' : M ≤ 1000) (hx : |a| ≤ 2 ^ 1023 → Is x (rnd a)) :
    Near x (d + 101 / 100) N M b := by
  have hb0 := abs_nonneg b
  have hsmall : d / 2 ^ 53 * |b| ≤ 1 / 100000 * |b| := by
    apply mul_le_mul_of_nonneg_right _ hb0
    rw [div_le_iff₀ (by norm_num)]; norm_num; linarith
  have h1 : |a| ≤ |b| + |a - b| := by
    have := abs_add_le b (a - b); rwa [add_sub_cancel] at this
  have h2 : |b| ≤ |a| + |a - b| := by
    have := abs_add_le a (b - a); rw [add_sub_cancel, abs_sub_comm] at this; exact this
  refine ⟨rnd a, hx (two_pow_le_of hM' (by linarith) hM), rnd_rnd _, ?_, hN, hM⟩
  rcases hN with rfl | hN
  · simp only [abs_zero, mul_zero] at h ⊢
    have : a = 0 := by
      have := abs_nonpos_iff.1 h
      linarith
    subst this
    rw [rnd_zero]; simp
  · have h3 : (2 : ℚ) ^ (-1022 : ℤ) ≤ |a| := by
      have e1 : ((1 : ℚ) / 2) ^ 1000 ≤ (1 / 2) ^ N :=
        pow_le_pow_of_le_one (by norm_num) (by norm_num) hN'
      have e2 : (2 : ℚ) ^ (-1022 : ℤ) = (1 / 2) ^ 1000 * (1 / 2) ^ 22 := by
        rw [← pow_add, one_div, inv_pow, zpow_neg]; rfl
      have e3 : (0 : ℚ) < (1 / 2) ^ 1000 := by positivity
      rw [e2]
      generalize ((1 : ℚ) / 2) ^ 1000 = B at *
      have : |b| ≤ 2 * |a| := by linarith
      norm_num
      linarith
    have h4 := abs_rnd_sub_le_rel h3
    have h5 : |rnd a - b| ≤ |rnd a - a| + |a - b| := abs_sub_le _ _ _
    simp only [Rat.cast_id] at h4
    have h6 : |a| / 2 ^ 53 ≤ (101 / 100) / 2 ^ 53 * |b| := by
      rw [div_mul_eq_mul_div]
      apply div_le_div_of_nonneg_right _ (by norm_num)
      linarith
    calc |rnd a - b| ≤ (101 / 100) / 2 ^ 53 * |b| + d / 2 ^ 53 * |b| := by linarith
      _ = _ := by ring

theorem near_const {q : ℚ} (x : F64) (hx : x = fin q) (hq : rnd q = q) {N M : ℕ}
    (h1 : (1 / 2) ^ N ≤ |q|) (h2 : |q| ≤ 2 ^ M) : Near x 0 N M q :=
  ⟨q, Or.inl hx, hq, by simp, Or.inr h1, h2⟩

theorem near_abs_le {c a b : ℚ} (hc : c ≤ 1000)
    (h : |a - b| ≤ c / 2 ^ 53 * |b|) : |a| ≤ (1 + c / 2 ^ 53) * |b| ∧ c / 2 ^ 53 ≤ 1 / 100000 := by
  have h1 : |a| ≤ |b| + |a - b| := by
    have := abs_add_le b (a - b); rwa [add_sub_cancel] at this
  refine ⟨by linarith, ?_⟩
  rw [div_le_iff₀ (by norm_num)]; norm_num; linarith

theorem Near.mul {x y : F64} {c d : ℚ} {N M N' M' : ℕ} {b b' : ℚ} (hx : Near x c N M b)
    (hy : Near y d N' M' b') (hc0 : 0 ≤ c) (hd0 : 0 ≤ d) (hc : c ≤ 100) (hd : d ≤ 100)
    (hN : N + N' ≤ 1000) (hM : M + M' ≤ 1000) :
    Near (mul x y) (c + d + 103 / 100) (N + N') (M + M') (b * b') := by
  obtain ⟨a, h1, h2, h3, h4, h5⟩ := hx
  obtain ⟨a', g1, g2, g3, g4, g5⟩ := hy
  have hb0 := abs_nonneg b
  have hb0' := abs_nonneg b'
  obtain ⟨g6, g7⟩ := near_abs_le (by linarith) g3
  have key : |a * a' - b * b'| ≤ (c + d + 2 / 100) / 2 ^ 53 * |b * b'| := by
    have e1 : a * a' - b * b' = (a - b) * a' + b * (a' - b') := by ring
    rw [e1, abs_mul b b']
    refine le_trans (abs_add_le _ _) ?_
    rw [abs_mul, abs_mul]
    have e2 : |a - b| * |a'| ≤ (c / 2 ^ 53 * |b|) * ((1 + d / 2 ^ 53) * |b'|) :=
      mul_le_mul h3 g6 (abs_nonneg _) (by positivity)
    have e3 : |b| * |a' - b'| ≤ |b| * (d / 2 ^ 53 * |b'|) := mul_le_mul_of_nonneg_left g3 hb0
    have e4 : c / 2 ^ 53 * (1 + d / 2 ^ 53) ≤ (c + 2 / 100) / 2 ^ 53 := by
      rw [div_mul_eq_mul_div]
      apply div_le_div_of_nonneg_right _ (by norm_num)
      have : c * (d / 2 ^ 53) ≤ 100 * (1 / 100000) := mul_le_mul hc g7 (by positivity) (by norm_num)
      linarith
    have e5 := mul_le_mul_of_nonneg_right e4 (mul_nonneg hb0 hb0')
    calc _ ≤ c / 2 ^ 53 * (1 + d / 2 ^ 53) * (|b| * |b'|) + d / 2 ^ 53 * (|b| * |b'|) := by
          linarith
      _ ≤ (c + 2 / 100) / 2 ^ 53 * (|b| * |b'|) + d / 2 ^ 53 * (|b| * |b'|) := by linarith
      _ = _ := by ring
  have := near_rnd (N := N + N') (M := M + M') (x := F64.mul x y) (by linarith) key
    (by
      rcases h4 with rfl | h4
      · left; simp
      rcases g4 with rfl | g4
      · left; simp
      right
      rw [pow_add, abs_mul]
      exact mul_le_mul h4 g4 (by positivity) hb0)
    (by rw [pow_add, abs_mul]; exact mul_le_mul h5 g5 hb0' (by positivity)) hN hM
    (fun h => h1.mul g1 h)
  rwa [show c + d + 2 / 100 + 101 / 100 = c + d + 103 / 100 by ring] at this

/-- Sums of nonnegative numbers; `e` is a weighted mean of the errors. -/
theorem Near.add {x y : F64} {c d : ℚ} (e : ℚ) {N M N' M' : ℕ} {b b' : ℚ} (hx : Near x c N M b)
    (hy : Near y d N' M' b') (hb : 0 ≤ b) (hb' : 0 ≤ b') (he : c * b + d * b' ≤ e * (b + b'))
    (he1 : e ≤ 1000) (hN : max N N' ≤ 1000) (hM : max M M' + 1 ≤ 1000) :
    Near (add x y) (e + 101 / 100) (max N N') (max M M' + 1) (b + b') := by
  obtain ⟨a, h1, h2, h3, h4, h5⟩ := hx
  obtain ⟨a', g1, g2, g3, g4, g5⟩ := hy
  rw [abs_of_nonneg hb] at h3 h4 h5
  rw [abs_of_nonneg hb'] at g3 g4 g5
  have hs : |b + b'| = b + b' := abs_of_nonneg (by linarith)
  have key : |a + a' - (b + b')| ≤ e / 2 ^ 53 * |b + b'| := by
    have e1 : a + a' - (b + b') = (a - b) + (a' - b') := by ring
    rw [e1, hs]
    refine le_trans (abs_add_le _ _) (le_trans (add_le_add h3 g3) ?_)
    have := div_le_div_of_nonneg_right he (by norm_num : (0 : ℚ) ≤ 2 ^ 53)
    calc _ = (c * b + d * b') / 2 ^ 53 := by ring
      _ ≤ _ := this
      _ = _ := by ring
  refine near_rnd he1 key ?_ ?_ hN hM (fun h => h1.add g1 h)
  · rw [hs]
    rcases h4 with rfl | h4
    · rcases g4 with rfl | g4
      · left; simp
      · right
        have : ((1 : ℚ) / 2) ^ max N N' ≤ (1 / 2) ^ N' :=
          pow_le_pow_of_le_one (by norm_num) (by norm_num) (le_max_right _ _)
        linarith
    · right
      have : ((1 : ℚ) / 2) ^ max N N' ≤ (1 / 2) ^ N :=
        pow_le_pow_of_le_one (by norm_num) (by norm_num) (le_max_left _ _)
      linarith
  · rw [hs, pow_succ]
    have e1 : (2 : ℚ) ^ M ≤ 2 ^ max M M' := pow_le_pow_right₀ (by norm_num) (le_max_left _ _)
    have e2 : (2 : ℚ) ^ M' ≤ 2 ^ max M M' := pow_le_pow_right₀ (by norm_num) (le_max_right _ _)
    linarith

/-- Division by a number of size at least one. -/
theorem Near.div {x y : F64} {c d : ℚ} {N M N' M' : ℕ} {b b' : ℚ} (hx : Near x c N M b)
    (hy : Near y d N' M' b') (hb1 : 1 ≤ b') (hc0 : 0 ≤ c) (hd0 : 0 ≤ d) (hc : c ≤ 100)
    (hd : d ≤ 100) (hN : N + M' ≤ 1000) (hM : M ≤ 1000) :
    Near (div x y) (c + d + 103 / 100) (N + M') M (b / b') := by
  obtain ⟨a, h1, h2, h3, h4, h5⟩ := hx
  obtain ⟨a', g1, g2, g3, g4, g5⟩ := hy
  have hb0 := abs_nonneg b
  have hbp : 0 < b' := by linarith
  rw [abs_of_pos hbp] at g3 g4 g5
  have hd53 : d / 2 ^ 53 ≤ 1 / 100000 := by
    rw [div_le_iff₀ (by norm_num)]; norm_num; linarith
  have hd530 : 0 ≤ d / 2 ^ 53 := by positivity
  have ha' : (1 - d / 2 ^ 53) * b' ≤ a' := by
    have := (abs_le.1 g3).1
    linarith
  have hlow : 0 < (1 - d / 2 ^ 53) * b' := mul_pos (by linarith) hbp
  have hap : 0 < a' := lt_of_lt_of_le hlow ha'
  have key : |a / a' - b / b'| ≤ (c + d + 2 / 100) / 2 ^ 53 * |b / b'| := by
    have e1 : a / a' - b / b' = ((a - b) + b * (b' - a') / b') / a' := by field_simp; ring
    rw [e1, abs_div, abs_of_pos hap, div_le_iff₀ hap]
    have e2 : |a - b + b * (b' - a') / b'| ≤ (c + d) / 2 ^ 53 * |b| := by
      refine le_trans (abs_add_le _ _) ?_
      rw [abs_div, abs_mul, abs_of_pos hbp, abs_sub_comm b' a']
      have : |b| * |a' - b'| / b' ≤ d / 2 ^ 53 * |b| := by
        rw [div_le_iff₀ hbp]
        have := mul_le_mul_of_nonneg_left g3 hb0
        linarith
      calc _ ≤ c / 2 ^ 53 * |b| + d / 2 ^ 53 * |b| := by linarith
        _ = _ := by ring
    refine le_trans e2 ?_
    rw [abs_div, abs_of_pos hbp]
    have e3 : (c + d) / 2 ^ 53 ≤ (c + d + 2 / 100) / 2 ^ 53 * (1 - d / 2 ^ 53) := by
      rw [div_mul_eq_mul_div]
      apply div_le_div_of_nonneg_right _ (by norm_num)
      have : (c + d + 2 / 100) * (d / 2 ^ 53) ≤ 201 * (1 / 100000) :=
        mul_le_mul (by linarith) hd53 hd530 (by norm_num)
      linarith
    calc (c + d) / 2 ^ 53 * |b| ≤ (c + d + 2 / 100) / 2 ^ 53 * (1 - d / 2 ^ 53) * |b| :=
          mul_le_mul_of_nonneg_right e3 hb0
      _ = (c + d + 2 / 100) / 2 ^ 53 * (|b| / b') * ((1 - d / 2 ^ 53) * b') := by
          field_simp
      _ ≤ _ := mul_le_mul_of_nonneg_left ha' (by positivity)
  have := near_rnd (N := N + M') (M := M) (x := F64.div x y) (by linarith) key
    (by
      rcases h4 with rfl | h4
      · left; simp
      right
      rw [pow_add, abs_div, abs_of_pos hbp, one_div_pow 2 M', mul_one_div]
      exact div_le_div₀ hb0 h4 hbp g5)
    (by
      rw [abs_div, abs_of_pos hbp]
      exact (div_le_self hb0 hb1).trans h5) hN hM
    (fun h => h1.div g1 hap.ne' h)
  rwa [show c + d + 2 / 100 + 101 / 100 = c + d + 103 / 100 by ring] at this

theorem Near.mono {x : F64} {c c' : ℚ} {N M N' M' : ℕ} {b : ℚ} (h : Near x c N M b) (hc : c ≤ c')
    (hN : N ≤ N') (hM : M ≤ M') : Near x c' N' M' b := by
  obtain ⟨a, h1, h2, h3, h4, h5⟩ := h
  refine ⟨a, h1, h2, le_trans h3 ?_, h4.imp id (fun h => le_trans ?_ h), le_trans h5 ?_⟩
  · exact mul_le_mul_of_nonneg_right (div_le_div_of_nonneg_right hc (by norm_num)) (abs_nonneg b)
  · exact pow_le_pow_of_le_one (by norm_num) (by norm_num) hN
  · exact pow_le_pow_right₀ (by norm_num) hM

end HLL.F64
