import Verif.SpecLn
import Verif.SpecCount
import Verif.Proofs.Approx
import Verif.Proofs.Count
import Mathlib.Analysis.SpecialFunctions.Log.Deriv

/-! # The correctly rounded logarithm meets `LnSpec`; accuracy of linear counting -/

namespace HLL
open F64

/-- A double different from 1 is at distance at least `2^-53` from it. -/
theorem one_gap {q : ℚ} (hq : rnd q = q) (h0 : 0 < q) (h1 : q ≠ 1) :
    q ≤ 1 - 2 ^ (-53 : ℤ) ∨ 1 + 2 ^ (-53 : ℤ) ≤ q := by
  rcases lt_or_gt_of_ne h1 with h | h
  · left
    by_contra hc
    rw [not_le] at hc
    -- q between 1 - 2^-53 and 1: write q = m 2^e
    have hu : ulpExp q = -53 := by
      unfold ulpExp
      rw [abs_of_pos h0]
      have h2 : Int.log 2 q = -1 := by
        apply le_antisymm
        · have : Int.log 2 q < 0 := by
            rw [← Int.lt_zpow_iff_log_lt (by norm_num) h0]; simpa using h
          omega
        · rw [← Int.zpow_le_iff_le_log (by norm_num) h0]
          refine le_trans ?_ hc.le
          norm_num
      rw [h2]; norm_num
    have hq' : ((rne (q / 2 ^ (-53 : ℤ)) : ℤ) : ℚ) * 2 ^ (-53 : ℤ) = q := by
      rw [← hu]; exact hq
    generalize rne (q / 2 ^ (-53 : ℤ)) = m at hq'
    rw [← hq'] at hc h
    have e1 : ((2 ^ 53 - 1 : ℤ) : ℚ) < m := by
      push_cast
      norm_num at hc ⊢
      linarith
    have e2 : (m : ℚ) < (2 ^ 53 : ℤ) := by
      push_cast
      norm_num at h ⊢
      linarith
    have e1' : (2 ^ 53 - 1 : ℤ) < m := by exact_mod_cast e1
    have e2' : m < (2 ^ 53 : ℤ) := by exact_mod_cast e2
    omega
  · right
    by_contra hc
    rw [not_le] at hc
    have hu : ulpExp q = -52 := by
      unfold ulpExp
      rw [abs_of_pos h0]
      have h2 : Int.log 2 q = 0 := by
        apply le_antisymm
        · have : Int.log 2 q < 1 := by
            rw [← Int.lt_zpow_iff_log_lt (by norm_num) h0]
            refine lt_of_lt_of_le hc ?_
            norm_num
          omega
        · rw [← Int.zpow_le_iff_le_log (by norm_num) h0]
          simpa using h.le
      rw [h2]; norm_num
    have hq' : ((rne (q / 2 ^ (-52 : ℤ)) : ℤ) : ℚ) * 2 ^ (-52 : ℤ) = q := by
      rw [← hu]; exact hq
    generalize rne (q / 2 ^ (-52 : ℤ)) = m at hq'
    rw [← hq'] at hc h
    have e1 : ((2 ^ 52 : ℤ) : ℚ) < m := by
      push_cast
      norm_num at h ⊢
      linarith
    have e2 : (m : ℚ) < (2 ^ 52 + 1 : ℤ) := by
      push_cast
      norm_num at hc ⊢
      linarith
    have e1' : (2 ^ 52 : ℤ) < m := by exact_mod_cast e1
    have e2' : m < (2 ^ 52 + 1 : ℤ) := by exact_mod_cast e2
    omega

theorem abs_log_ge {q : ℚ} (hq : rnd q = q) (h0 : 0 < q) (h1 : q ≠ 1) :
    (2 : ℝ) ^ (-54 : ℤ) ≤ |Real.log q| := by
  have h0' : (0 : ℝ) < q := by exact_mod_cast h0
  rcases one_gap hq h0 h1 with h | h
  · have h' : (q : ℝ) ≤ 1 - 2 ^ (-53 : ℤ) := by
      have := (Rat.cast_le (K := ℝ)).2 h
      push_cast at this; exact this
    have := Real.log_le_sub_one_of_pos h0'
    rw [abs_of_nonpos (by linarith [two_pow_pos (K := ℝ) (-53)])]
    have e : (2 : ℝ) ^ (-54 : ℤ) ≤ 2 ^ (-53 : ℤ) := zpow_le_zpow_right₀ (by norm_num) (by norm_num)
    linarith
  · have h' : 1 + 2 ^ (-53 : ℤ) ≤ (q : ℝ) := by
      have := (Rat.cast_le (K := ℝ)).2 h
      push_cast at this; exact this
    have h2 := Real.log_le_log (by positivity) h'
    have h3 := Real.one_sub_inv_le_log_of_pos (x := 1 + (2 : ℝ) ^ (-53 : ℤ)) (by positivity)
    have h4 : (2 : ℝ) ^ (-54 : ℤ) ≤ 1 - (1 + (2 : ℝ) ^ (-53 : ℤ))⁻¹ := by norm_num
    have h5 := le_trans h4 (le_trans h3 h2)
    rwa [abs_of_nonneg (le_trans (two_pow_pos (K := ℝ) (-54)).le h5)]

theorem abs_log_le {q : ℚ} (hq : rnd q = q) (h0 : 0 < q) (h1 : q < 2 ^ 1024) :
    |Real.log q| ≤ 2 ^ 11 := by
  have h0' : (0 : ℝ) < q := by exact_mod_cast h0
  have hl2 : Real.log 2 ≤ 1 := by
    have := Real.log_le_sub_one_of_pos (x := 2) (by norm_num)
    linarith
  have hl0 : 0 ≤ Real.log 2 := Real.log_nonneg (by norm_num)
  rw [abs_le]
  constructor
  · obtain ⟨n, hn⟩ := rnd_grid q
    rw [hq] at hn
    have hn1 : (1 : ℚ) ≤ n := by
      have : 0 < n := by
        by_contra hc
        have : (n : ℚ) ≤ 0 := by exact_mod_cast not_lt.1 hc
        have : q ≤ 0 := by rw [hn]; exact mul_nonpos_of_nonpos_of_nonneg this (two_pow_pos _).le
        linarith
      exact_mod_cast this
    have hge : (2 : ℝ) ^ (-1074 : ℤ) ≤ q := by
      have : (2 : ℚ) ^ (-1074 : ℤ) ≤ q := by
        rw [hn]; nlinarith [two_pow_pos (K := ℚ) (-1074)]
      have := (Rat.cast_le (K := ℝ)).2 this
      push_cast at this; exact this
    have := Real.log_le_log (by positivity) hge
    rw [Real.log_zpow] at this
    push_cast at this
    linarith
  · have hle : (q : ℝ) ≤ 2 ^ 1024 := by exact_mod_cast h1.le
    have := Real.log_le_log h0' hle
    rw [Real.log_pow] at this
    push_cast at this
    linarith

/-- The correctly rounded logarithm meets the specification. -/
theorem lnRound_spec : LnSpec lnRound := by
  refine ⟨?_, by simp [lnRound], ?_⟩
  · intro q hq h0 h1
    have hb := abs_log_le hq h0 h1
    have hb' : |Real.log q| ≤ 2 ^ 1023 :=
      le_trans hb (pow_le_pow_right₀ (by norm_num) (by norm_num))
    refine ⟨rnd (Real.log q), ?_, ?_⟩
    · rw [lnRound]
      simp only [h0.ne', h0.not_gt, if_false]
      exact round_fin hb' (Or.inl rfl)
    · by_cases h : q = 1
      · subst h; simp [rnd_zero]
      · have h2 := abs_log_ge hq h0 h
        refine le_trans (abs_rnd_sub_le_rel (le_trans ?_ h2)) ?_
        · exact zpow_le_zpow_right₀ (by norm_num) (by norm_num)
        · exact div_le_div_of_nonneg_left (abs_nonneg _) (by positivity)
            (pow_le_pow_right₀ (by norm_num) (by norm_num))
  · intro q _ hq _
    rw [lnRound]
    simp [hq.ne, hq]

theorem LnSpec.one {ln : F64 → F64} (h : LnSpec ln) : ln (fin 1) = fin 0 := by
  obtain ⟨y, h1, h2⟩ := h.pos 1 (by exact_mod_cast rnd_natCast (K := ℚ) (n := 1) (by norm_num))
    (by norm_num) (one_lt_pow₀ (by norm_num) (by norm_num))
  rw [h1]
  simp only [Rat.cast_one, Real.log_one, sub_zero, abs_zero, zero_div, abs_nonpos_iff] at h2
  congr 1
  exact_mod_cast h2

namespace Spec

/-- Accuracy of linear counting: `m ln(m/V)` is computed with a relative error of `2^-39` plus an
absolute error of `m 2^-51`. -/
theorem linear_approx {ln : F64 → F64} (hln : LnSpec ln) {m V : ℕ} (hV : 0 < V) (hVm : V ≤ m)
    (hm : m ≤ 2 ^ 24) :
    ∃ y : ℚ, linear ln m V = fin y ∧ (V = m → y = 0) ∧ 
      |(y : ℝ) - m * Real.log (m / V)| ≤ m / 2 ^ 51 + m * Real.log (m / V) / 2 ^ 39 := by
  have hm0 : 0 < m := by omega
  have hVq : (0 : ℚ) < V := by exact_mod_cast hV
  have hmq : (0 : ℚ) < m := by exact_mod_cast hm0
  have hVr : (0 : ℝ) < V := by exact_mod_cast hV
  have hmr : (0 : ℝ) < m := by exact_mod_cast hm0
  have hVmr : (V : ℝ) ≤ m := by exact_mod_cast hVm
  have hVmq : (V : ℚ) ≤ m := by exact_mod_cast hVm
  have hm24 : (m : ℝ) ≤ 2 ^ 24 := by exact_mod_cast hm
  have hm24q : (m : ℚ) ≤ 2 ^ 24 := by exact_mod_cast hm
  have hV1 : (1 : ℚ) ≤ V := by exact_mod_cast hV
  -- the quotient
  have hx1 : (1 : ℚ) ≤ m / V := by rw [le_div_iff₀ hVq]; linarith
  have hx2 : (m : ℚ) / V ≤ 2 ^ 24 := by
    rw [div_le_iff₀ hVq]; nlinarith
  have hdiv : div (num m) (num V) = fin (rnd ((m : ℚ) / V)) :=
    div_fin_nonneg hmq.le hVq (le_trans hx2 (pow_le_pow_right₀ (by norm_num) (by norm_num)))
  have hone : rnd (1 : ℚ) = 1 := by exact_mod_cast rnd_natCast (K := ℚ) (n := 1) (by norm_num)
  have h24 : rnd ((2 : ℚ) ^ 24) = 2 ^ 24 := by
    exact_mod_cast rnd_natCast (K := ℚ) (n := 2 ^ 24) (by norm_num)
  obtain ⟨q, hq⟩ : ∃ q, q = rnd ((m : ℚ) / V) := ⟨_, rfl⟩
  have hqd : rnd q = q := by rw [hq]; exact rnd_idem _
  have hq1 : 1 ≤ q := by rw [hq]; exact le_rnd_of_le hone (by simpa using hx1)
  have hq2 : q ≤ 2 ^ 24 := by rw [hq]; exact rnd_le_of_le h24 (by simpa using hx2)
  have hqerr : |q - (m : ℚ) / V| ≤ (m : ℚ) / V / 2 ^ 53 := by
    have := abs_rnd_sub_le_rel (K := ℚ) (x := (m : ℚ) / V)
      (by rw [abs_of_pos (by positivity)]
          refine le_trans ?_ hx1
          exact zpow_le_one_of_nonpos₀ (by norm_num) (by norm_num))
    rw [abs_of_pos (a := (m : ℚ) / V) (by positivity)] at this
    rw [hq]; simpa using this
  obtain ⟨y, hy1, hy2⟩ := hln.pos q hqd (by linarith)
    (lt_of_le_of_lt hq2 (pow_lt_pow_right₀ (by norm_num) (by norm_num)))
  rw [linear, hdiv, ← hq, hy1]
  -- real logarithms
  have hq1r : (1 : ℝ) ≤ q := by exact_mod_cast hq1
  have hxr : (1 : ℝ) ≤ m / V := by rw [le_div_iff₀ hVr]; linarith
  have hL0 : 0 ≤ Real.log (m / V) := Real.log_nonneg hxr
  have hlq0 : 0 ≤ Real.log q := Real.log_nonneg hq1r
  have hqr : |(q : ℝ) - m / V| ≤ m / V / 2 ^ 53 := by
    have : ((|q - (m : ℚ) / V| : ℚ) : ℝ) ≤ (((m : ℚ) / V / 2 ^ 53 : ℚ) : ℝ) := by exact_mod_cast hqerr
    push_cast at this
    exact this
  have hlog : |Real.log q - Real.log (m / V)| ≤ 1 / 2 ^ 52 := by
    have hx0 : (0 : ℝ) < m / V := by positivity
    have hq0 : (0 : ℝ) < q := by linarith
    rw [abs_le] at hqr ⊢
    constructor
    · have := Real.log_le_sub_one_of_pos (x := (m / V : ℝ) / q) (by positivity)
      rw [Real.log_div hx0.ne' hq0.ne'] at this
      have h2 : (m / V : ℝ) / q - 1 ≤ 1 / 2 ^ 52 := by
        rw [sub_le_iff_le_add, div_le_iff₀ hq0]
        have : (m / V : ℝ) * (1 - 1 / 2 ^ 53) ≤ q := by linarith [hqr.1]
        norm_num at this ⊢
        linarith
      linarith
    · have := Real.log_le_sub_one_of_pos (x := q / (m / V : ℝ)) (by positivity)
      rw [Real.log_div hq0.ne' hx0.ne'] at this
      have h2 : q / (m / V : ℝ) - 1 ≤ 1 / 2 ^ 52 := by
        rw [sub_le_iff_le_add, div_le_iff₀ hx0]
        have : (q : ℝ) ≤ (m / V : ℝ) * (1 + 1 / 2 ^ 53) := by linarith [hqr.2]
        norm_num at this ⊢
        linarith
      linarith
  rw [abs_of_nonneg hlq0] at hy2
  have hlog' := abs_le.1 hlog
  have hy2' := abs_le.1 hy2
  have hy0 : (0 : ℝ) ≤ y := by
    have : Real.log q / 2 ^ 40 ≤ Real.log q := div_le_self hlq0 (by norm_num)
    linarith
  have hy0q : 0 ≤ y := by exact_mod_cast hy0
  have hlqb : Real.log q ≤ 2 ^ 24 := by
    have := Real.log_le_sub_one_of_pos (x := (q : ℝ)) (by linarith)
    have : (q : ℝ) ≤ 2 ^ 24 := by exact_mod_cast hq2
    linarith
  have hyb : (y : ℝ) ≤ 2 ^ 25 := by
    have : Real.log q / 2 ^ 40 ≤ Real.log q := div_le_self hlq0 (by norm_num)
    linarith
  have hybq : y ≤ 2 ^ 25 := by exact_mod_cast hyb
  have hprod : (m : ℚ) * y ≤ 2 ^ 1023 := by
    have : (m : ℚ) * y ≤ 2 ^ 24 * 2 ^ 25 := by gcongr
    refine le_trans this ?_
    rw [← pow_add]; exact pow_le_pow_right₀ (by norm_num) (by norm_num)
  rw [num, mul_fin_nonneg hmq.le hy0q hprod]
  refine ⟨_, rfl, ?_, ?_⟩
  · rintro rfl
    have : q = 1 := by
      rw [hq, div_self hmq.ne', hone]
    subst this
    simp only [Rat.cast_one, Real.log_one, sub_zero, zero_div, abs_nonpos_iff] at hy2
    have : y = 0 := by exact_mod_cast hy2
    rw [this, mul_zero, rnd_zero]
  · have herr := rnd_err (K := ℚ) ((m : ℚ) * y)
    rw [abs_of_nonneg (a := (m : ℚ) * y) (by positivity)] at herr
    have herr' : |((rnd ((m : ℚ) * y) : ℚ) : ℝ) - m * y| ≤ m * y / 2 ^ 53 + 2 ^ (-1074 : ℤ) := by
      have : ((|(rnd ((m : ℚ) * y)) - (m : ℚ) * y| : ℚ) : ℝ) ≤
          (((m : ℚ) * y / 2 ^ 53 + 2 ^ (-1074 : ℤ) : ℚ) : ℝ) := by exact_mod_cast herr
      push_cast at this
      exact this
    have htiny : (2 : ℝ) ^ (-1074 : ℤ) ≤ 1 / 2 ^ 60 := by
      have : (2 : ℝ) ^ (-1074 : ℤ) ≤ 2 ^ (-60 : ℤ) := zpow_le_zpow_right₀ (by norm_num) (by norm_num)
      refine le_trans this (by norm_num)
    generalize (2 : ℝ) ^ (-1074 : ℤ) = tiny at herr' htiny
    generalize ((rnd ((m : ℚ) * y) : ℚ) : ℝ) = Y at herr' ⊢
    have hm1 : (1 : ℝ) ≤ m := by exact_mod_cast hm0
    generalize Real.log (m / V) = L at *
    generalize Real.log q = L' at *
    -- |y - L| ≤ 2^-52 + 2^-40 (L + 2^-52)
    have hyL : |(y : ℝ) - L| ≤ 1 / 2 ^ 52 + (L + 1 / 2 ^ 52) / 2 ^ 40 := by
      rw [abs_le]
      have : L' / 2 ^ 40 ≤ (L + 1 / 2 ^ 52) / 2 ^ 40 := by
        apply div_le_div_of_nonneg_right _ (by norm_num); linarith
      constructor <;> linarith
    have hmy : |(m : ℝ) * y - m * L| ≤ m * (1 / 2 ^ 52 + (L + 1 / 2 ^ 52) / 2 ^ 40) := by
      rw [← mul_sub, abs_mul, abs_of_pos hmr]
      exact mul_le_mul_of_nonneg_left hyL hmr.le
    have hmL : 0 ≤ m * L := by positivity
    rw [abs_le] at herr' hmy ⊢
    norm_num at herr' hmy htiny ⊢
    constructor <;> nlinarith [herr'.1, herr'.2, hmy.1, hmy.2]

end Spec
end HLL
