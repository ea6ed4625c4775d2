import Verif.Proofs.AllError

/-!
# Second moment of the estimate of the original HyperLogLog

As in `AllError.lean`, for hashes of 32 bits.  `pf_whole_low` and `raw_near` bound the error by the
deviations of the harmonic sum and of the number of empty registers.
-/

namespace HLL
open Spec F64 Finset Exps

variable {ln : F64 → F64} {p n w : Nat} {δ : ℝ}

/-! ## The two deviations -/

/-- The mean square of the relative deviation of the harmonic sum, for hashes of any width. -/
theorem harm_square_w (h1 : 1 ≤ p) (hp : p ≤ w) (hw : w ≤ 64) (hr : relVar w p n ≤ 1.15) :
    mean (fun h : Fin n → Fin (2 ^ 64) =>
      ((harm w p h - 2 ^ p * moment w p n (1 / 2)) / (2 ^ p * moment w p n (1 / 2))) ^ 2) ≤
      1.15 / 2 ^ p := by
  have he := moment_half_pos (w := w) (p := p) (n := n)
  have hvar := variance_harm (w := w) (p := p) n h1 hp hw
  have e : (fun h : Fin n → Fin (2 ^ 64) =>
      ((harm w p h - 2 ^ p * moment w p n (1 / 2)) / (2 ^ p * moment w p n (1 / 2))) ^ 2) =
      fun h => 1 / (2 ^ p * moment w p n (1 / 2)) ^ 2 *
        (harm w p h - 2 ^ p * moment w p n (1 / 2)) ^ 2 := by
    funext h; field_simp
  rw [e, mean_mul]
  refine (mul_le_mul_of_nonneg_left hvar (by positivity)).trans ?_
  unfold relVar at hr
  have e2 : 1 / (2 ^ p * moment w p n (1 / 2)) ^ 2 *
      (2 ^ p * (moment w p n (1 / 4) - moment w p n (1 / 2) ^ 2)) =
      (moment w p n (1 / 4) / moment w p n (1 / 2) ^ 2 - 1) / 2 ^ p := by
    field_simp
  rw [e2]
  gcongr

/-- The mean square of the deviation of the number of empty registers, in units of `zdev`. -/
theorem zunit_square3 (h1 : 8 ≤ p) (hp : p ≤ w) (hw : w ≤ 64) (hn : n ≤ 3 * 2 ^ p) :
    mean (fun h : Fin n → Fin (2 ^ 64) =>
      zunit p n ((zeros w p (hashSet w h) : ℝ) - 2 ^ p * (1 - 1 / 2 ^ p) ^ n) ^ 2) ≤
      2 / 2 ^ p := by
  have hz := (zdev_facts (p := p) (n := n) h1 (δ := 1 / 10) (by norm_num)).1
  have e : (fun h : Fin n → Fin (2 ^ 64) =>
      zunit p n ((zeros w p (hashSet w h) : ℝ) - 2 ^ p * (1 - 1 / 2 ^ p) ^ n) ^ 2) =
      fun h => (1 / 10) ^ 2 / zdev p n (1 / 10) ^ 2 *
        ((zeros w p (hashSet w h) : ℝ) - 2 ^ p * (1 - 1 / 2 ^ p) ^ n) ^ 2 := by
    funext h; unfold zunit; field_simp
  rw [e, mean_mul]
  have h3 := zeros_square (n := n) (p := p) (w := w) (by omega) hp hw
  have h4 := zeros_prob_arith3 (l := (n : ℝ) / 2 ^ p) (by positivity)
    (by rw [div_le_iff₀ (by positivity)]; exact_mod_cast hn) (m_ge h1) (q_pos h1) (q_lower (n := n) h1)
    (δ := 1 / 10) (by norm_num) le_rfl
  have e2 : zdev p n (1 / 10) = 1 / 10 * (n / 2 ^ p + 1.6) / (1 + 1 / 10 * (n / 2 ^ p + 1.6)) *
    (2 ^ p * (1 - 1 / 2 ^ p) ^ n) := rfl
  rw [← e2] at h4
  generalize (2 : ℝ) ^ p * ((1 - 1 / 2 ^ p) ^ n * (1 - (1 - 1 / 2 ^ p) ^ n)) = v at *
  generalize zdev p n (1 / 10) = z at *
  calc _ ≤ (1 / 10) ^ 2 / z ^ 2 * v := by gcongr
    _ = (1 / 10) ^ 2 * (v / z ^ 2) := by ring
    _ ≤ (1 / 10) ^ 2 * (2 / (2 ^ p * (1 / 10) ^ 2)) := by gcongr
    _ = _ := by field_simp

/-- The relative deviation of the harmonic sum of 32-bit hashes. -/
noncomputable def pfHarmDev (p n : Nat) (h : Fin n → Fin (2 ^ 64)) : ℝ :=
  (harm 32 p h - 2 ^ p * moment 32 p n (1 / 2)) / (2 ^ p * moment 32 p n (1 / 2))

/-- The deviation of the number of empty registers for 32-bit hashes. -/
noncomputable def pfZerosDev (p n : Nat) (h : Fin n → Fin (2 ^ 64)) : ℝ :=
  zunit p n ((zeros 32 p (hashSet 32 h) : ℝ) - 2 ^ p * (1 - 1 / 2 ^ p) ^ n)

/-- Sum of the squared deviations, in units of `δ` of `pf_whole_low`. -/
noncomputable def pfDevs (p n : Nat) (h : Fin n → Fin (2 ^ 64)) : ℝ :=
  1.21 * pfHarmDev p n h ^ 2 + if n ≤ 3 * 2 ^ p then pfZerosDev p n h ^ 2 else 0

theorem pfDevs_ge (h : Fin n → Fin (2 ^ 64)) : 0 ≤ pfDevs p n h ∧
    (11 / 10 * |pfHarmDev p n h|) ^ 2 ≤ pfDevs p n h ∧
    (n ≤ 3 * 2 ^ p → |pfZerosDev p n h| ^ 2 ≤ pfDevs p n h) := by
  unfold pfDevs
  rw [mul_pow, sq_abs, sq_abs]
  have a := sq_nonneg (pfHarmDev p n h)
  have b := sq_nonneg (pfZerosDev p n h)
  generalize pfHarmDev p n h ^ 2 = x at *
  generalize pfZerosDev p n h ^ 2 = y at *
  refine ⟨by split <;> positivity, ?_, fun hn => ?_⟩
  · norm_num
    split <;> linarith
  · rw [if_pos hn]; norm_num; linarith

/-- The relative variance of the harmonic sum. -/
theorem pf_relVar (h1 : 8 ≤ p) (h2 : p ≤ 16) (hn : n ≤ 2 ^ 26) : relVar 32 p n ≤ 1.15 := by
  rcases Nat.lt_or_ge (6 * 2 ^ p) n with h6 | h6
  · exact (loaded_high (w := 32) h1 (by omega) (by omega) (by omega) (by omega)
      (by norm_num at hn ⊢; omega)).var
  · exact relVar_le (w := 32) (by omega) h1 (by omega) h6

theorem mean_pfDevs (h1 : 8 ≤ p) (h2 : p ≤ 16) (hn : n ≤ 2 ^ 26) :
    mean (pfDevs p n) ≤ 3.3915 / 2 ^ p := by
  have a := harm_square_w (w := 32) (by omega) (by omega) (by omega) (pf_relVar h1 h2 hn)
  have hm : (0 : ℝ) < 1 / 2 ^ p := by positivity
  have hd : ∀ x : ℝ, x / 2 ^ p = x * (1 / 2 ^ p) := fun x => by ring
  rw [hd] at a ⊢
  by_cases hn3 : n ≤ 3 * 2 ^ p
  · have b := zunit_square3 (w := 32) h1 (by omega) (by omega) hn3
    rw [hd 2] at b
    unfold pfDevs
    simp only [if_pos hn3]
    rw [mean_add, mean_mul]
    refine (add_le_add (mul_le_mul_of_nonneg_left a (by norm_num)) b).trans ?_
    generalize 1 / (2 : ℝ) ^ p = x at *
    norm_num
    linarith
  · unfold pfDevs
    simp only [if_neg hn3, add_zero]
    rw [mean_mul]
    refine (mul_le_mul_of_nonneg_left a (by norm_num)).trans ?_
    generalize 1 / (2 : ℝ) ^ p = x at *
    norm_num
    linarith

/-! ## Bounds on the error -/

/-- The rare set. -/
def PFar (p n : Nat) (h : Fin n → Fin (2 ^ 64)) : Prop :=
  1 / 10 / (1 + 1 / 10) * (2 ^ p * moment 32 p n (1 / 2)) ≤
      |harm 32 p h - 2 ^ p * moment 32 p n (1 / 2)| ∨
    (n ≤ 3 * 2 ^ p ∧
      zdev p n (1 / 10) ≤ |(zeros 32 p (hashSet 32 h) : ℝ) - 2 ^ p * (1 - 1 / 2 ^ p) ^ n|)

theorem pfar_tail (h1 : 8 ≤ p) (h2 : p ≤ 16) (hn : n ≤ 2 ^ 26) :
    fraction (PFar p n) ≤ 2 * Real.exp (-(2 ^ p * (1 / 10) ^ 2 / 4)) +
      2 * Real.exp (-(2 ^ p * (1 / 10) ^ 2 / 6)) := by
  have hl : Loaded 32 p n := by
    rcases Nat.lt_or_ge (6 * 2 ^ p) n with h6 | h6
    · exact loaded_high (w := 32) h1 (by omega) (by omega) (by omega) (by omega)
        (by norm_num at hn ⊢; omega)
    · exact loaded_low h1 (by omega) (by omega) (by omega) h6
  have a := harm_tail hl (by omega) (by omega) (δ := 1 / 10) (by norm_num) le_rfl
  unfold PFar
  refine (fraction_or _ _).trans (add_le_add a ?_)
  by_cases hn3 : n ≤ 3 * 2 ^ p
  · refine (fraction_mono fun h hh => hh.2).trans
      (zeros_tail3 (w := 32) h1 (by omega) (by omega) (δ := 1 / 10) (by norm_num) le_rfl hn3)
  · have e : (fun h : Fin n → Fin (2 ^ 64) => n ≤ 3 * 2 ^ p ∧ zdev p n (1 / 10) ≤
        |(zeros 32 p (hashSet 32 h) : ℝ) - 2 ^ p * (1 - 1 / 2 ^ p) ^ n|) = fun _ => False := by
      funext h; simp [hn3]
    rw [e]
    refine le_trans (le_of_eq ?_) (by positivity : (0 : ℝ) ≤ 2 * Real.exp (-(2 ^ p * (1 / 10) ^ 2 / 6)))
    simp [fraction]

/-- The part of the error that does not depend on the hashes. -/
noncomputable def pfExtra (p n : Nat) : ℝ := if n ≤ 2 * 2 ^ p then 0 else 0.11 * 2 ^ p

theorem pfExtra_nonneg : 0 ≤ pfExtra p n := by unfold pfExtra; split <;> positivity

/-- The error if the harmonic sum and the number of empty registers are near their means. -/
theorem pf_near (hln : LnSpec ln) (h1 : 8 ≤ p) (h2 : p ≤ 16) (hn : n ≤ 2 ^ 26) (hδ0 : 0 < δ)
    (hδ : δ ≤ 1 / 10) {h : Fin n → Fin (2 ^ 64)}
    (hgood : |harm 32 p h - 2 ^ p * moment 32 p n (1 / 2)| < δ / (1 + δ) * (2 ^ p * moment 32 p n (1 / 2)))
    (hz : n ≤ 3 * 2 ^ p → |(zeros 32 p (hashSet 32 h) : ℝ) - 2 ^ p * (1 - 1 / 2 ^ p) ^ n| < zdev p n δ) :
    ∃ y : ℚ, pfCount ln p (hashSet 32 h) = fin y ∧
      |(y : ℝ) - n| ≤ wholeErr p δ * (n + 1.6 * 2 ^ p) + pfExtra p n := by
  rcases Nat.lt_or_ge (6 * 2 ^ p) n with hn6 | hn6
  · have hn0 : (0 : ℝ) ≤ n := Nat.cast_nonneg n
    have hcon := raw_near (w := 32) (by omega) (by omega) (by omega) (by omega) (by omega)
      (by norm_num at hn ⊢; omega) hδ0 (by linarith) hgood
    have hn6' : 6 * (2 : ℝ) ^ p < n := by exact_mod_cast hn6
    have hn' : (n : ℝ) ≤ 2 ^ 26 := by exact_mod_cast hn
    obtain ⟨q1, q2⟩ := abs_le.1 hcon
    have hw : 1.1 / (2 : ℝ) ^ p ≤ 1.1 / 256 := by have := m_ge h1; gcongr
    have h3 : (0.89 : ℝ) * n ≤ (1 - (δ + 1.1 / 2 ^ p + 0.001)) * n := by
      refine mul_le_mul_of_nonneg_right ?_ (by positivity)
      norm_num at hw hδ ⊢; linarith
    refine ⟨_, pfCount_raw (by omega) h2 ?_ ?_, hcon.trans ((high_err hδ0).trans
      (le_add_of_nonneg_right pfExtra_nonneg))⟩
    · have h6 : ((5 / 2 * (2 : ℚ) ^ p : ℚ) : ℝ) < (rawQ p (hsum 0 (regs 32 p (hashSet 32 h))) : ℝ) := by
        push_cast
        generalize 1.1 / (2 : ℝ) ^ p = ω at *
        norm_num at h3 q1
        linarith
      exact_mod_cast h6
    · have : (rawQ p (hsum 0 (regs 32 p (hashSet 32 h))) : ℝ) ≤ 2 ^ 32 / 30 := by
        generalize 1.1 / (2 : ℝ) ^ p = ω at *
        have hn'' : (n : ℝ) ≤ 67108864 := hn'.trans (by norm_num)
        norm_num at h3 q2 ⊢
        linarith
      have h6 : (rawQ p (hsum 0 (regs 32 p (hashSet 32 h))) : ℝ) ≤ ((2 ^ 32 / 30 : ℚ) : ℝ) := by
        push_cast; exact this
      exact_mod_cast h6
  · exact pf_whole_low hln h1 h2 hδ0 hδ hn6
      (raw_good (w := 32) (by omega) (by omega) hδ0 (by omega) hgood) hz

/-- Outside the rare set the error is bounded by the deviations. -/
theorem pf_near_devs (hln : LnSpec ln) (h1 : 8 ≤ p) (h2 : p ≤ 16) (hn : n ≤ 2 ^ 26)
    {h : Fin n → Fin (2 ^ 64)} {y : ℚ} (hy : pfCount ln p (hashSet 32 h) = fin y) (hfar : ¬ PFar p n h) :
    |(y : ℝ) - n| ≤ (1.05 * √(pfDevs p n h) + (0.005 + 4 / 2 ^ p)) * (n + 1.6 * 2 ^ p) + pfExtra p n := by
  have he := moment_half_pos (w := 32) (p := p) (n := n)
  have hM : 0 < 2 ^ p * moment 32 p n (1 / 2) := by positivity
  have hN : (0 : ℝ) < n + 1.6 * 2 ^ p := by positivity
  unfold PFar at hfar
  rw [not_or, not_le, not_and, not_le] at hfar
  obtain ⟨f1, f2⟩ := hfar
  have step : ∀ δ : ℝ, 0 < δ → δ ≤ 1 / 10 → √(pfDevs p n h) < δ →
      |(y : ℝ) - n| ≤ wholeErr p δ * (n + 1.6 * 2 ^ p) + pfExtra p n := by
    intro δ hδ0 hδ hlt
    rw [Real.sqrt_lt' hδ0] at hlt
    obtain ⟨-, d1, d2⟩ := pfDevs_ge (p := p) h
    obtain ⟨y', k1, k2⟩ := pf_near hln h1 h2 hn hδ0 hδ (h := h) (by
      have g2 := lt_of_pow_lt_pow_left₀ 2 hδ0.le (d1.trans_lt hlt)
      unfold pfHarmDev at g2
      rw [abs_div, abs_of_pos hM, mul_div_assoc', div_lt_iff₀ hM] at g2
      have g3 : 10 / 11 * δ ≤ δ / (1 + δ) := by
        rw [le_div_iff₀ (by linarith)]; nlinarith
      have g4 := mul_le_mul_of_nonneg_right g3 hM.le
      generalize |harm 32 p h - 2 ^ p * moment 32 p n (1 / 2)| = x at *
      generalize 2 ^ p * moment 32 p n (1 / 2) = μ at *
      linarith)
      (fun hn3 => lt_zdev h1 hδ0 hδ (lt_of_pow_lt_pow_left₀ 2 hδ0.le ((d2 hn3).trans_lt hlt)))
    rw [fin.inj (hy.symm.trans k1)]
    exact k2
  rcases lt_or_ge (√(pfDevs p n h)) (1 / 10) with hlt | hge
  · refine le_of_forall_pos_le_add fun ε hε => ?_
    set t := √(pfDevs p n h) with ht
    have ht0 : 0 ≤ t := Real.sqrt_nonneg _
    set η := ε / (1.05 * (n + 1.6 * 2 ^ p)) with hη
    have hη0 : 0 < η := by positivity
    have k1 := step (min (t + η) (1 / 10)) (lt_min (by linarith) (by norm_num)) (min_le_right _ _)
      (lt_min (by linarith) hlt)
    refine k1.trans ?_
    have k2 : wholeErr p (min (t + η) (1 / 10)) ≤ (1.05 * t + (0.005 + 4 / 2 ^ p)) + 1.05 * η := by
      have := min_le_left (t + η) (1 / 10)
      unfold wholeErr
      generalize min (t + η) (1 / 10) = u at *
      norm_num only at this ⊢
      linarith
    have k3 : 1.05 * η * (n + 1.6 * 2 ^ p) = ε := by rw [hη]; field_simp
    have k4 := mul_le_mul_of_nonneg_right k2 hN.le
    rw [add_mul, k3] at k4
    linarith
  · obtain ⟨y', k1, k2⟩ := pf_near hln h1 h2 hn (δ := 1 / 10) (by norm_num) le_rfl f1 f2
    rw [fin.inj (hy.symm.trans k1)]
    refine k2.trans (add_le_add (mul_le_mul_of_nonneg_right ?_ hN.le) le_rfl)
    unfold wholeErr
    have : 1.05 * (1 / 10) ≤ 1.05 * √(pfDevs p n h) := by gcongr
    linarith

/-- Linear counting with `m` registers gives at most `m log m`. -/
theorem linear_log_le (hln : LnSpec ln) (h2 : p ≤ 16) {V : Nat} (hV : 0 < V) (hVm : V ≤ 2 ^ p) {y : ℚ}
    (hy : linear ln (2 ^ p) V = fin y) : 0 ≤ (y : ℝ) + 2 ^ p / 2 ^ 50 ∧ (y : ℝ) ≤ 11.1 * 2 ^ p := by
  have h18 : 2 ^ p ≤ 2 ^ 16 := Nat.pow_le_pow_right (by norm_num) h2
  obtain ⟨y', k1, -, k2⟩ := linear_approx hln (m := 2 ^ p) hV hVm (by omega)
  rw [← fin.inj (hy.symm.trans k1)] at k2
  have hm0 : (0 : ℝ) < 2 ^ p := by positivity
  have hV' : (1 : ℝ) ≤ V := by exact_mod_cast hV
  have hVm' : (V : ℝ) ≤ 2 ^ p := by exact_mod_cast hVm
  have hlog0 : 0 ≤ Real.log ((2 : ℝ) ^ p / V) := Real.log_nonneg (by rw [le_div_iff₀ (by linarith)]; linarith)
  have hlog : Real.log ((2 : ℝ) ^ p / V) ≤ 11.0904 := by
    have a1 : Real.log ((2 : ℝ) ^ p / V) ≤ Real.log ((2 : ℝ) ^ 16) := by
      refine Real.log_le_log (by positivity) ((div_le_self hm0.le hV').trans ?_)
      exact pow_le_pow_right₀ (by norm_num) h2
    rw [Real.log_pow] at a1
    have := Real.log_two_lt_d9
    norm_num at a1 this ⊢
    linarith
  push_cast at k2
  generalize Real.log ((2 : ℝ) ^ p / V) = l at *
  generalize (2 : ℝ) ^ p = m at *
  have hml : m * l ≤ m * 11.0904 := by gcongr
  have hml0 : 0 ≤ m * l := by positivity
  obtain ⟨b1, b2⟩ := abs_le.1 k2
  norm_num at b1 b2 hml ⊢
  constructor <;> linarith

/-- The values `count` can return, if it returns a number. -/
theorem pfCount_range (hln : LnSpec ln) (h1 : 8 ≤ p) (h2 : p ≤ 16) {S : Finset Nat} {y : ℚ}
    (hy : pfCount ln p S = fin y) :
    -1 ≤ (y : ℝ) ∧ ((y : ℝ) ≤ 11.1 * 2 ^ p ∨
      ((y : ℝ) = rawQ p (hsum 0 (regs 32 p S)) ∧ (rawQ p (hsum 0 (regs 32 p S)) : ℝ) ≤ 2 ^ 32 / 29) ∨
      (2 ^ 32 / 31 < (rawQ p (hsum 0 (regs 32 p S)) : ℝ) ∧ (y : ℝ) ≤ 2 ^ 39)) := by
  have hM : Regs p (regs 32 p S) := regs_regs _ (by omega)
  have hm16 : (2 : ℝ) ^ p ≤ 2 ^ 16 := pow_le_pow_right₀ (by norm_num) h2
  obtain ⟨t, ht, ht1, ht2⟩ := pf_large
  obtain ⟨hr1, hr2⟩ := hM.raw_bounds (by omega) (by omega)
  have hrr : rnd (rawQ p (hsum 0 (regs 32 p S))) = rawQ p (hsum 0 (regs 32 p S)) := rnd_rnd _
  have hr0 : 0 ≤ rawQ p (hsum 0 (regs 32 p S)) := by
    have hm : (1 : ℚ) ≤ 2 ^ p := one_le_pow₀ (by norm_num)
    obtain ⟨_, ha1, _⟩ := alpha_facts (p := p) (by omega) (by omega : p ≤ 18)
    norm_num at hr1
    nlinarith
  rcases pfRegime_cases ln (by omega : 4 ≤ p) h2 S with ⟨_, _, a3, a4⟩ | ⟨_, ⟨_, a3, a4⟩ | ⟨_, a3, a4⟩⟩
  · have hcl : (regs 32 p S).count 0 ≤ 2 ^ p := by rw [← hM.length]; exact List.count_le_length
    obtain ⟨b1, b2⟩ := linear_log_le hln h2 (Nat.pos_of_ne_zero a3) hcl (a4.symm.trans hy)
    refine ⟨?_, Or.inl b2⟩
    norm_num at b1 hm16 ⊢
    linarith
  · rw [fin.inj (hy.symm.trans a4)]
    have hr0' : (0 : ℝ) ≤ rawQ p (hsum 0 (regs 32 p S)) := by exact_mod_cast hr0
    refine ⟨by linarith, Or.inr (Or.inl ⟨rfl, ?_⟩)⟩
    rw [ht] at a3
    have a5 : rawQ p (hsum 0 (regs 32 p S)) ≤ t := by
      by_contra hc
      rw [(gt_fin _ _).2 (not_le.1 hc)] at a3
      exact absurd a3 (by decide)
    have := (Rat.cast_le (K := ℝ)).2 (a5.trans ht2)
    push_cast at this
    exact this
  · rw [ht, gt_fin] at a3
    have a5 := lt_of_le_of_lt ht1 a3
    obtain ⟨_, c2, c3⟩ := largeRange hln hrr a5.le hr2
    rw [a4] at hy
    rcases lt_trichotomy (rawQ p (hsum 0 (regs 32 p S))) (2 ^ 32) with g | g | g
    · obtain ⟨z, k1, k2, k3, -⟩ := largeRange_lt hln hrr a5.le g
      rw [fin.inj (hy.symm.trans k1)]
      have u1 : (0 : ℚ) ≤ rnd (-(2 ^ 32) * z) := by
        have := rnd_mono (K := ℚ) (show (0 : ℚ) ≤ -(2 ^ 32) * z by linarith)
        rwa [rnd_zero] at this
      have u2 : rnd (-(2 ^ 32) * z) ≤ (2 : ℚ) ^ 39 := by
        refine rnd_le_of_le (by decide +kernel) ?_
        rw [Rat.cast_id]
        linarith
      have u1' := (Rat.cast_le (K := ℝ)).2 u1
      have u2' := (Rat.cast_le (K := ℝ)).2 u2
      have a5' := (Rat.cast_lt (K := ℝ)).2 a5
      push_cast at u1' u2' a5'
      exact ⟨by linarith, Or.inr (Or.inr ⟨a5', u2'⟩)⟩
    · rw [c2 g] at hy; cases hy
    · rw [c3 g] at hy; cases hy

/-- The centre of the raw estimate. -/
theorem pf_centre (h1 : 8 ≤ p) (h2 : p ≤ 16) (hn : n ≤ 2 ^ 26) :
    0 < centre 32 p n ∧ (centre 32 p n ≤ 6.1 * 2 ^ p ∨ centre 32 p n ≤ 1.0006 * n) := by
  refine ⟨centre_pos (w := 32) (n := n) (p := p) (by omega) (by omega), ?_⟩
  rcases Nat.lt_or_ge (6 * 2 ^ p) n with h6 | h6
  · exact Or.inr (centre_near (w := 32) (by omega) (by omega) (by omega) (by omega)
      (by norm_num at hn ⊢; omega)).2.1
  left
  have hn6 : (n : ℝ) / 2 ^ p ≤ 6 := by rw [div_le_iff₀ (by positivity)]; exact_mod_cast h6
  obtain ⟨b1, -⟩ := moment_half_bounds (w := 32) (p := p) (n := n) (by omega) (by omega) (by omega) h6
  have hE := E_ge hn6
  obtain ⟨-, a2⟩ := alpha_near (p := p) (by omega) (by omega)
  have hm := m_ge h1
  have hw1 : 1.5 / (2 : ℝ) ^ p ≤ 1.5 / 256 := by gcongr
  have hw2 : 0 ≤ 1.06 / (2 : ℝ) ^ p := by positivity
  have hM := moment_half_pos (w := 32) (p := p) (n := n)
  have b2 : 0.1183 ≤ moment 32 p n (1 / 2) := by
    refine le_trans ?_ b1
    have : (0.1183 : ℝ) ≤ (1 - 1.5 / 256) * 0.119 := by norm_num
    refine this.trans (mul_le_mul (by linarith) hE (by norm_num) ?_)
    norm_num at hw1 ⊢; linarith
  unfold centre
  rw [div_le_iff₀ hM]
  have a3 : (alphaQ p : ℝ) ≤ 0.7213 := by
    generalize 1.06 / (2 : ℝ) ^ p = ω at *
    norm_num at a2 ⊢; linarith
  have hm0 : (0 : ℝ) < 2 ^ p := by positivity
  calc (alphaQ p : ℝ) * 2 ^ p ≤ 0.7213 * 2 ^ p := by gcongr
    _ ≤ 6.1 * 0.1183 * 2 ^ p := by gcongr; norm_num
    _ = 6.1 * 2 ^ p * 0.1183 := by ring
    _ ≤ _ := by gcongr

/-- The raw estimate unless the harmonic sum is very small. -/
theorem pf_raw_mid (h1 : 8 ≤ p) (h2 : p ≤ 16) (hn : n ≤ 2 ^ 26) {h : Fin n → Fin (2 ^ 64)}
    (hh : ¬ harm 32 p h ≤ 1 / 2 * (2 ^ p * moment 32 p n (1 / 2))) :
    (rawQ p (hsum 0 (regs 32 p (hashSet 32 h))) : ℝ) ≤ 12.3 * 2 ^ p ∨
      (rawQ p (hsum 0 (regs 32 p (hashSet 32 h))) : ℝ) ≤ 2.0013 * n := by
  have he := moment_half_pos (w := 32) (p := p) (n := n)
  have hM : 0 < 2 ^ p * moment 32 p n (1 / 2) := by positivity
  obtain ⟨c1, c2⟩ := pf_centre h1 h2 hn
  have hr := raw_ratio (w := 32) (n := n) (p := p) (by omega) (by omega) (by omega) h
  rw [not_le] at hh
  have hz : 1 / 2 < harm 32 p h / (2 ^ p * moment 32 p n (1 / 2)) := by
    rwa [lt_div_iff₀ hM]
  have hinv : 1 / (harm 32 p h / (2 ^ p * moment 32 p n (1 / 2))) ≤ 2 := by
    rw [div_le_iff₀ (by linarith)]; linarith
  generalize harm 32 p h / (2 ^ p * moment 32 p n (1 / 2)) = z at *
  have hz0 : 0 < z := by linarith
  have r2 := (abs_le.1 hr).2
  have hm0 : (0 : ℝ) ≤ 2 ^ p := by positivity
  have hn0 : (0 : ℝ) ≤ n := Nat.cast_nonneg n
  have h7 : centre 32 p n * (1 / z) ≤ centre 32 p n * 2 := mul_le_mul_of_nonneg_left hinv c1.le
  generalize centre 32 p n * (1 / z) = x at *
  rcases c2 with c2 | c2
  · left
    norm_num at r2 h7 c2 ⊢
    linarith
  · right
    norm_num at r2 h7 c2 ⊢
    linarith

/-- Unless the harmonic sum is very small, `count` returns a number. -/
theorem pf_finite_mid (hln : LnSpec ln) (h1 : 8 ≤ p) (h2 : p ≤ 16) (hn : n ≤ 2 ^ 26) {h : Fin n → Fin (2 ^ 64)}
    (hh : ¬ harm 32 p h ≤ 1 / 2 * (2 ^ p * moment 32 p n (1 / 2))) :
    ∃ y : ℚ, pfCount ln p (hashSet 32 h) = fin y := by
  have hM : Regs p (regs 32 p (hashSet 32 h)) := regs_regs _ (by omega)
  obtain ⟨y, hy, -⟩ := (pfDense_value hln (by omega : 4 ≤ p) h2 hM).1 (by
    have hm16 : (2 : ℝ) ^ p ≤ 2 ^ 16 := pow_le_pow_right₀ (by norm_num) h2
    have hn' : (n : ℝ) ≤ 2 ^ 26 := by exact_mod_cast hn
    have : (rawQ p (hsum 0 (regs 32 p (hashSet 32 h))) : ℝ) < ((2 ^ 32 : ℚ) : ℝ) := by
      push_cast
      rcases pf_raw_mid h1 h2 hn hh with k | k
      · refine lt_of_le_of_lt k (lt_of_le_of_lt (mul_le_mul_of_nonneg_left hm16 (by norm_num)) (by norm_num))
      · refine lt_of_le_of_lt k (lt_of_le_of_lt (mul_le_mul_of_nonneg_left hn' (by norm_num)) (by norm_num))
    exact_mod_cast this)
  exact ⟨y, hy⟩

/-- The error unless the harmonic sum is very small. -/
theorem pf_mid (hln : LnSpec ln) (h1 : 8 ≤ p) (h2 : p ≤ 16) (hn : n ≤ 2 ^ 26) {h : Fin n → Fin (2 ^ 64)} {y : ℚ}
    (hy : pfCount ln p (hashSet 32 h) = fin y)
    (hh : ¬ harm 32 p h ≤ 1 / 2 * (2 ^ p * moment 32 p n (1 / 2))) :
    |(y : ℝ) - n| ≤ 7.7 * (n + 1.6 * 2 ^ p) := by
  obtain ⟨k1, k2⟩ := pfCount_range hln h1 h2 hy
  have hm := m_ge h1
  have hm16 : (2 : ℝ) ^ p ≤ 65536 := (pow_le_pow_right₀ (by norm_num) h2).trans (by norm_num)
  have hn0 : (0 : ℝ) ≤ n := Nat.cast_nonneg n
  have hn' : (n : ℝ) ≤ 67108864 := by
    have : (n : ℝ) ≤ 2 ^ 26 := by exact_mod_cast hn
    exact this.trans (by norm_num)
  have k3 := pf_raw_mid h1 h2 hn hh
  have hup : (y : ℝ) ≤ 12.3 * 2 ^ p + 2.0013 * n := by
    rcases k2 with k2 | ⟨k2, -⟩ | ⟨k2, -⟩
    · norm_num at k2 ⊢; linarith
    · rw [k2]
      rcases k3 with k3 | k3 <;> norm_num at k3 ⊢ <;> linarith
    · exfalso
      rcases k3 with k3 | k3 <;> norm_num at k2 k3 <;> linarith
  rw [abs_le]
  norm_num at hup ⊢
  constructor <;> linarith

theorem pfar_small (h1 : 13 ≤ p) (h2 : p ≤ 16) :
    7.7 ^ 2 * (2 * Real.exp (-(2 ^ p * (1 / 10) ^ 2 / 4)) + 2 * Real.exp (-(2 ^ p * (1 / 10) ^ 2 / 6))) ≤
      1.2 / 2 ^ p := by
  have key : ∀ k : Nat, (k : ℝ) ≤ 2 ^ p * (1 / 10) ^ 2 / 6 → 7.7 ^ 2 * (4 * (0.36788 : ℝ) ^ k) ≤ 1.2 / 2 ^ p →
      7.7 ^ 2 * (2 * Real.exp (-(2 ^ p * (1 / 10) ^ 2 / 4)) + 2 * Real.exp (-(2 ^ p * (1 / 10) ^ 2 / 6))) ≤
        1.2 / 2 ^ p := fun k a b => by
    have a' : (k : ℝ) ≤ 2 ^ p * (1 / 10) ^ 2 / 4 := by
      refine a.trans ?_
      have : (0 : ℝ) ≤ 2 ^ p * (1 / 10) ^ 2 := by positivity
      linarith
    have c1 := exp_neg_le' a
    have c2 := exp_neg_le' a'
    generalize Real.exp (-(2 ^ p * (1 / 10) ^ 2 / 4)) = x at *
    generalize Real.exp (-(2 ^ p * (1 / 10) ^ 2 / 6)) = y at *
    refine le_trans ?_ b
    gcongr
    linarith
  rcases Nat.lt_or_ge 13 p with h | h
  · interval_cases p
    all_goals exact key 27 (by norm_num) (by norm_num)
  · obtain rfl : p = 13 := by omega
    have c2 := exp_neg_le' (x := 2 ^ 13 * (1 / 10) ^ 2 / 4) (k := 20) (by norm_num)
    have c1 : Real.exp (-(2 ^ 13 * (1 / 10) ^ 2 / 6)) ≤ 0.36788 ^ 13 * 0.5373 := by
      have e : -((2 : ℝ) ^ 13 * (1 / 10) ^ 2 / 6) = -(13 : ℕ) + -(0.65 + 0.01 / 3) := by norm_num
      rw [e, Real.exp_add]
      refine mul_le_mul (exp_neg_le' le_rfl) ?_ (Real.exp_pos _).le (by positivity)
      rw [Real.exp_neg, inv_le_comm₀ (Real.exp_pos _) (by norm_num)]
      refine le_trans ?_ ((Real.quadratic_le_exp_of_nonneg (x := 0.65) (by norm_num)).trans
        (Real.exp_le_exp.2 (by norm_num)))
      norm_num
    generalize Real.exp (-(2 ^ 13 * (1 / 10) ^ 2 / 4)) = x at *
    generalize Real.exp (-(2 ^ 13 * (1 / 10) ^ 2 / 6)) = y at *
    calc _ ≤ 7.7 ^ 2 * (2 * (0.36788 : ℝ) ^ 20 + 2 * (0.36788 ^ 13 * 0.5373)) := by gcongr
      _ ≤ _ := by norm_num

/-- The probability that `count` does not return a number. -/
theorem pf_finite_tail (hln : LnSpec ln) (h1 : 8 ≤ p) (h2 : p ≤ 16) (hn : n ≤ 2 ^ 26) :
    fraction (fun h : Fin n → Fin (2 ^ 64) => ¬ ∃ y : ℚ, pfCount ln p (hashSet 32 h) = fin y) ≤
      Real.exp (-(0.078 * 2 ^ p)) := by
  refine le_trans (fraction_mono fun h hh => ?_) (harm_half (pf_relVar h1 h2 hn) (by omega) (by omega))
  by_contra hc
  exact hh (pf_finite_mid hln h1 h2 hn hc)

/-- The mean square of the error. -/
theorem pf_square (hln : LnSpec ln) (h1 : 13 ≤ p) (h2 : p ≤ 16) (hn : n ≤ 2 ^ 26)
    {y : (Fin n → Fin (2 ^ 64)) → ℚ} (hy : ∀ h, pfCount ln p (hashSet 32 h) = fin (y h) ∨ y h = n) :
    mean (fun h => ((y h : ℝ) - n) ^ 2) ≤
      ((2.25 / √(2 ^ p) + 0.005 + 4 / 2 ^ p) * (n + 1.6 * 2 ^ p) + pfExtra p n) ^ 2 := by
  have hm0 : (0 : ℝ) < 2 ^ p := by positivity
  have hs : 0 < √((2 : ℝ) ^ p) := Real.sqrt_pos.2 hm0
  have hx : 0 < 1 / √((2 : ℝ) ^ p) := by positivity
  have hx2 : (1 / √((2 : ℝ) ^ p)) ^ 2 = 1 / 2 ^ p := by
    rw [div_pow, Real.sq_sqrt hm0.le, one_pow]
  have hm : (8192 : ℝ) ≤ 2 ^ p := by
    calc (8192 : ℝ) = 2 ^ 13 := by norm_num
      _ ≤ 2 ^ p := pow_le_pow_right₀ (by norm_num) h1
  have hm16 : (2 : ℝ) ^ p ≤ 2 ^ 16 := pow_le_pow_right₀ (by norm_num) h2
  have hN : (0 : ℝ) < n + 1.6 * 2 ^ p := by positivity
  have hn0 : (0 : ℝ) ≤ n := Nat.cast_nonneg n
  have hn' : (n : ℝ) ≤ 2 ^ 26 := by exact_mod_cast hn
  have hX := pfExtra_nonneg (p := p) (n := n)
  have zero : ∀ {h : Fin n → Fin (2 ^ 64)}, y h = n → |(y h : ℝ) - n| = 0 := fun e => by
    rw [e]; simp
  have hb : 0 ≤ 0.005 + 4 / 2 ^ p + pfExtra p n / (n + 1.6 * 2 ^ p) := by positivity
  have key := square_near (n := n) (T := fun h => √(pfDevs p n h)) (Y := fun h => (y h : ℝ) - n)
    (bad := PFar p n) (half := fun h => harm 32 p h ≤ 1 / 2 * (2 ^ p * moment 32 p n (1 / 2)))
    (a := 1.05) (b := 0.005 + 4 / 2 ^ p + pfExtra p n / (n + 1.6 * 2 ^ p)) (N := n + 1.6 * 2 ^ p)
    (A := 7.7 * (n + 1.6 * 2 ^ p))
    (W := 2 ^ 40) (r := 1.8417 * (1 / √(2 ^ p))) (fun h => Real.sqrt_nonneg _) (by norm_num)
    hb hN.le (by positivity) (by
      have e : (fun h : Fin n → Fin (2 ^ 64) => √(pfDevs p n h) ^ 2) = pfDevs p n := by
        funext h; exact Real.sq_sqrt (pfDevs_ge h).1
      rw [e, mul_pow, hx2]
      refine (mean_pfDevs (by omega) h2 hn).trans ?_
      rw [mul_one_div]
      gcongr
      norm_num)
    (fun h hh => by
      rcases hy h with e | e
      · refine (pf_near_devs hln (by omega) h2 hn e hh).trans (le_of_eq ?_)
        rw [← add_assoc (1.05 * √(pfDevs p n h)) (0.005 + 4 / 2 ^ p), add_mul _ (pfExtra p n / _),
          div_mul_cancel₀ _ hN.ne']
      · rw [zero e]
        have := Real.sqrt_nonneg (pfDevs p n h)
        positivity)
    (fun h hh => by
      rcases hy h with e | e
      · exact pf_mid hln (by omega) h2 hn e hh
      · rw [zero e]; positivity)
    (fun h => by
      rcases hy h with e | e
      · obtain ⟨k1, k2⟩ := pfCount_range hln (by omega) h2 e
        have k3 : (y h : ℝ) ≤ 2 ^ 39 := by
          rcases k2 with k2 | ⟨k2, k3⟩ | ⟨-, k2⟩
          · exact k2.trans ((mul_le_mul_of_nonneg_left hm16 (by norm_num)).trans (by norm_num))
          · rw [k2]; exact k3.trans (by norm_num)
          · exact k2
        rw [abs_le]
        norm_num at k3 ⊢
        have hn'' : (n : ℝ) ≤ 67108864 := hn'.trans (by norm_num)
        constructor <;> linarith
      · rw [zero e]; positivity)
  refine key.trans ?_
  have b1 := pfar_tail (n := n) (by omega) h2 hn
  have b2 := harm_half (pf_relVar (n := n) (by omega) h2 hn) (by omega) (by omega)
  have b3 := pfar_small h1 h2
  have c1 : (7.7 * ((n : ℝ) + 1.6 * 2 ^ p)) ^ 2 * fraction (PFar p n) ≤
      1.2 / 2 ^ p * (n + 1.6 * 2 ^ p) ^ 2 := by
    rw [mul_pow]
    calc _ = 7.7 ^ 2 * fraction (PFar p n) * ((n : ℝ) + 1.6 * 2 ^ p) ^ 2 := by ring
      _ ≤ 7.7 ^ 2 * (2 * Real.exp (-(2 ^ p * (1 / 10) ^ 2 / 4)) +
          2 * Real.exp (-(2 ^ p * (1 / 10) ^ 2 / 6))) * ((n : ℝ) + 1.6 * 2 ^ p) ^ 2 := by gcongr
      _ ≤ _ := by gcongr
  have c2 : ((2 : ℝ) ^ 40) ^ 2 *
      fraction (fun h : Fin n → Fin (2 ^ 64) => harm 32 p h ≤ 1 / 2 * (2 ^ p * moment 32 p n (1 / 2))) ≤
      0.001 / 2 ^ p * (n + 1.6 * 2 ^ p) ^ 2 := by
    have d1 := exp_neg_le (x := 0.078 * 2 ^ p) (k := 250) (by norm_num at hm ⊢; linarith)
    have d2 : (1 : ℝ) ≤ ((n : ℝ) + 1.6 * 2 ^ p) ^ 2 := one_le_pow₀ (by norm_num; linarith)
    have d3 : ((2 : ℝ) ^ 40) ^ 2 * 0.4 ^ 250 ≤ 0.001 / 2 ^ 16 := by norm_num
    calc _ ≤ ((2 : ℝ) ^ 40) ^ 2 * 0.4 ^ 250 := by
          refine mul_le_mul_of_nonneg_left (b2.trans d1) (by positivity)
      _ ≤ 0.001 / 2 ^ 16 * 1 := by rw [mul_one]; exact d3
      _ ≤ _ := by gcongr
  have e0 : (2.25 / √(2 ^ p) + 0.005 + 4 / 2 ^ p) * ((n : ℝ) + 1.6 * 2 ^ p) + pfExtra p n =
      (2.25 * (1 / √(2 ^ p)) + (0.005 + 4 / 2 ^ p + pfExtra p n / (n + 1.6 * 2 ^ p))) * (n + 1.6 * 2 ^ p) := by
    field_simp
    ring
  have e : ((1.05 * (1.8417 * (1 / √((2 : ℝ) ^ p))) + (0.005 + 4 / 2 ^ p + pfExtra p n / (n + 1.6 * 2 ^ p))) *
      (n + 1.6 * 2 ^ p)) ^ 2 +
      1.2 / 2 ^ p * (n + 1.6 * 2 ^ p) ^ 2 + 0.001 / 2 ^ p * (n + 1.6 * 2 ^ p) ^ 2 ≤
      ((2.25 / √(2 ^ p) + 0.005 + 4 / 2 ^ p) * ((n : ℝ) + 1.6 * 2 ^ p) + pfExtra p n) ^ 2 := by
    rw [e0, mul_pow, mul_pow _ ((n : ℝ) + 1.6 * 2 ^ p), ← add_mul, ← add_mul]
    refine mul_le_mul_of_nonneg_right ?_ (sq_nonneg _)
    have e1 : ∀ a : ℝ, a / 2 ^ p = a * (1 / √((2 : ℝ) ^ p)) ^ 2 := fun a => by rw [hx2]; ring
    rw [e1 1.2, e1 0.001]
    generalize 0.005 + 4 / (2 : ℝ) ^ p + pfExtra p n / (n + 1.6 * 2 ^ p) = b at *
    generalize 1 / √((2 : ℝ) ^ p) = x at *
    norm_num
    nlinarith [mul_nonneg hb hx.le, sq_nonneg x]
  linarith

end HLL
