import Verif.Props.StdError
import Verif.Proofs.Whole3

/-!
# Second moment of the estimate for up to `6 m` values

`whole_low` bounds the error of the estimate by the deviations of three random variables from their
means: the harmonic sum, the number of empty registers and the number of distinct prefixes.  Here the
bound is squared and averaged.  Assignments where a deviation is large are rare by `Chernoff.lean` and
`ChernoffZeros.lean`.
-/

namespace HLL
open Spec F64 Finset Exps

variable {ln : F64 → F64} {p n w : Nat} {δ : ℝ}

open Classical in
/-- The mean square of an error that is at most `(a T + b) N` outside a rare set. -/
theorem square_near {T Y : (Fin n → Fin (2 ^ 64)) → ℝ} {bad half : (Fin n → Fin (2 ^ 64)) → Prop}
    {a b N A W r : ℝ} (hT0 : ∀ h, 0 ≤ T h) (ha : 0 ≤ a) (hb : 0 ≤ b) (hN : 0 ≤ N) (hr : 0 < r)
    (hT : mean (fun h => T h ^ 2) ≤ r ^ 2)
    (near : ∀ h, ¬ bad h → |Y h| ≤ (a * T h + b) * N) (mid : ∀ h, ¬ half h → |Y h| ≤ A)
    (all : ∀ h, |Y h| ≤ W) :
    mean (fun h => Y h ^ 2) ≤ ((a * r + b) * N) ^ 2 + A ^ 2 * fraction bad + W ^ 2 * fraction half := by
  have h1 : ∀ h, Y h ^ 2 ≤ (a * N) ^ 2 * T h ^ 2 + 2 * (a * N) * (b * N) * |T h| + (b * N) ^ 2 +
      A ^ 2 * (if bad h then 1 else 0) + W ^ 2 * (if half h then 1 else 0) := by
    intro h
    have g0 : 0 ≤ (a * N) ^ 2 * T h ^ 2 + 2 * (a * N) * (b * N) * |T h| + (b * N) ^ 2 := by positivity
    have g1 : 0 ≤ A ^ 2 * (if bad h then (1 : ℝ) else 0) := by split <;> positivity
    have g2 : 0 ≤ W ^ 2 * (if half h then (1 : ℝ) else 0) := by split <;> positivity
    by_cases c1 : bad h
    · by_cases c2 : half h
      · have a1 : Y h ^ 2 ≤ W ^ 2 := by
          rw [← sq_abs]; exact pow_le_pow_left₀ (abs_nonneg _) (all h) 2
        rw [if_pos c2] at g2 ⊢
        linarith
      · have a1 : Y h ^ 2 ≤ A ^ 2 := by
          rw [← sq_abs]; exact pow_le_pow_left₀ (abs_nonneg _) (mid h c2) 2
        rw [if_pos c1]
        linarith
    · have a4 : Y h ^ 2 ≤ ((a * T h + b) * N) ^ 2 := by
        rw [← sq_abs]; exact pow_le_pow_left₀ (abs_nonneg _) (near h c1) 2
      have e : ((a * T h + b) * N) ^ 2 =
          (a * N) ^ 2 * T h ^ 2 + 2 * (a * N) * (b * N) * |T h| + (b * N) ^ 2 := by
        rw [abs_of_nonneg (hT0 h)]; ring
      linarith
  have h2 := mean_mono h1
  rw [mean_add, mean_add, mean_add, mean_add, mean_mul, mean_mul, mean_mul, mean_mul, mean_const,
    ← fraction_eq_mean, ← fraction_eq_mean] at h2
  have h3 : mean (fun h => |T h|) ≤ r := mean_abs_le hr hT
  have h4 : (a * N) ^ 2 * mean (fun h => T h ^ 2) ≤ (a * N) ^ 2 * r ^ 2 := by gcongr
  have h5 : 2 * (a * N) * (b * N) * mean (fun h => |T h|) ≤ 2 * (a * N) * (b * N) * r := by gcongr
  refine h2.trans ((add_le_add (add_le_add (add_le_add (add_le_add h4 h5) le_rfl) le_rfl) le_rfl).trans
    (le_of_eq ?_))
  ring

/-! ## The three deviations -/

/-- The mean square of the relative deviation of the harmonic sum. -/
theorem harm_square_of (h1 : 1 ≤ p) (h2 : p ≤ 18) (hr : relVar 64 p n ≤ 1.15) :
    mean (fun h : Fin n → Fin (2 ^ 64) =>
      ((harm 64 p h - 2 ^ p * moment 64 p n (1 / 2)) / (2 ^ p * moment 64 p n (1 / 2))) ^ 2) ≤
      1.15 / 2 ^ p := by
  have he := moment_half_pos (w := 64) (p := p) (n := n)
  have hvar := variance_harm (w := 64) (p := p) n (by omega) (by omega) le_rfl
  have e : (fun h : Fin n → Fin (2 ^ 64) =>
      ((harm 64 p h - 2 ^ p * moment 64 p n (1 / 2)) / (2 ^ p * moment 64 p n (1 / 2))) ^ 2) =
      fun h => 1 / (2 ^ p * moment 64 p n (1 / 2)) ^ 2 *
        (harm 64 p h - 2 ^ p * moment 64 p n (1 / 2)) ^ 2 := by
    funext h; field_simp
  rw [e, mean_mul]
  have h3 : 1 / (2 ^ p * moment 64 p n (1 / 2)) ^ 2 *
      mean (fun h : Fin n → Fin (2 ^ 64) => (harm 64 p h - 2 ^ p * moment 64 p n (1 / 2)) ^ 2) ≤
      1 / (2 ^ p * moment 64 p n (1 / 2)) ^ 2 *
        (2 ^ p * (moment 64 p n (1 / 4) - moment 64 p n (1 / 2) ^ 2)) := by gcongr
  refine h3.trans ?_
  have e2 : 1 / (2 ^ p * moment 64 p n (1 / 2)) ^ 2 *
        (2 ^ p * (moment 64 p n (1 / 4) - moment 64 p n (1 / 2) ^ 2)) = relVar 64 p n / 2 ^ p := by
    unfold relVar; field_simp
  rw [e2]
  gcongr

theorem harm_square (h1 : 8 ≤ p) (h2 : p ≤ 18) (hn : n ≤ 6 * 2 ^ p) :
    mean (fun h : Fin n → Fin (2 ^ 64) =>
      ((harm 64 p h - 2 ^ p * moment 64 p n (1 / 2)) / (2 ^ p * moment 64 p n (1 / 2))) ^ 2) ≤
      1.15 / 2 ^ p :=
  harm_square_of (by omega) h2 (relVar_le (w := 64) (by omega) h1 h2 hn)

/-- The mean square of the deviation of the number of empty registers. -/
theorem zeros_square (hp1 : 1 ≤ p) (hp : p ≤ w) (hw : w ≤ 64) :
    mean (fun h : Fin n → Fin (2 ^ 64) =>
      ((zeros w p (hashSet w h) : ℝ) - 2 ^ p * (1 - 1 / 2 ^ p) ^ n) ^ 2) ≤
      2 ^ p * ((1 - 1 / 2 ^ p) ^ n * (1 - (1 - 1 / 2 ^ p) ^ n)) :=
  (variance_zeros hp1 hp hw n).le.trans (variance_le hp1 n)

/-- A deviation of the zero counter, in the units of `zdev`. -/
noncomputable def zunit (p n : Nat) (x : ℝ) : ℝ := 1 / 10 * x / zdev p n (1 / 10)

theorem zunit_square (h1 : 8 ≤ p) (h2 : p ≤ 18) (hn : n ≤ 2 * 2 ^ p) :
    mean (fun h : Fin n → Fin (2 ^ 64) =>
      zunit p n ((zeros 64 p (hashSet 64 h) : ℝ) - 2 ^ p * (1 - 1 / 2 ^ p) ^ n) ^ 2) ≤
      0.95 / 2 ^ p := by
  have hz := (zdev_facts (p := p) (n := n) h1 (δ := 1 / 10) (by norm_num)).1
  have e : (fun h : Fin n → Fin (2 ^ 64) =>
      zunit p n ((zeros 64 p (hashSet 64 h) : ℝ) - 2 ^ p * (1 - 1 / 2 ^ p) ^ n) ^ 2) =
      fun h => (1 / 10) ^ 2 / zdev p n (1 / 10) ^ 2 *
        ((zeros 64 p (hashSet 64 h) : ℝ) - 2 ^ p * (1 - 1 / 2 ^ p) ^ n) ^ 2 := by
    funext h; unfold zunit; field_simp
  rw [e, mean_mul]
  have h3 := zeros_square (n := n) (p := p) (w := 64) (by omega) (by omega) le_rfl
  have h4 := zeros_prob_arith (l := (n : ℝ) / 2 ^ p) (by positivity)
    (by rw [div_le_iff₀ (by positivity)]; exact_mod_cast hn) (m_ge h1) (q_pos h1) (q_lower (n := n) h1)
    (δ := 1 / 10) (by norm_num) le_rfl
  have e2 : zdev p n (1 / 10) = 1 / 10 * (n / 2 ^ p + 1.6) / (1 + 1 / 10 * (n / 2 ^ p + 1.6)) *
    (2 ^ p * (1 - 1 / 2 ^ p) ^ n) := rfl
  rw [← e2] at h4
  generalize (2 : ℝ) ^ p * ((1 - 1 / 2 ^ p) ^ n * (1 - (1 - 1 / 2 ^ p) ^ n)) = v at *
  generalize zdev p n (1 / 10) = z at *
  calc _ ≤ (1 / 10) ^ 2 / z ^ 2 * v := by gcongr
    _ = (1 / 10) ^ 2 * (v / z ^ 2) := by ring
    _ ≤ (1 / 10) ^ 2 * (0.95 / (2 ^ p * (1 / 10) ^ 2)) := by gcongr
    _ = _ := by field_simp

/-- The deviation is below `zdev p n δ` if it is below `δ` in units of `zdev`. -/
theorem lt_zdev (h1 : 8 ≤ p) (hδ0 : 0 < δ) (hδ : δ ≤ 1 / 10) {x : ℝ} (hx : |zunit p n x| < δ) :
    |x| < zdev p n δ := by
  have hz := (zdev_facts (p := p) (n := n) h1 (δ := 1 / 10) (by norm_num)).1
  unfold zunit at hx
  rw [abs_div, abs_of_pos hz, abs_mul, abs_of_pos (by norm_num : (0 : ℝ) < 1 / 10),
    div_lt_iff₀ hz] at hx
  have h2 : 10 * δ * zdev p n (1 / 10) ≤ zdev p n δ := by
    have hq := q_pos (p := p) (n := n) h1
    unfold zdev
    have hs : 0 < (n : ℝ) / 2 ^ p + 1.6 := by positivity
    generalize (n : ℝ) / 2 ^ p + 1.6 = s at *
    have hμ : (0 : ℝ) < 2 ^ p * (1 - 1 / 2 ^ p) ^ n := by positivity
    generalize (2 : ℝ) ^ p * (1 - 1 / 2 ^ p) ^ n = μ at *
    rw [← mul_assoc]
    refine mul_le_mul_of_nonneg_right ?_ hμ.le
    rw [mul_div_assoc', div_le_div_iff₀ (by positivity) (by positivity)]
    have : 0 ≤ δ * s * s * (1 / 10 - δ) := by
      have : 0 ≤ 1 / 10 - δ := by linarith
      positivity
    nlinarith
  linarith

theorem prefix_square :
    mean (fun h : Fin n → Fin (2 ^ 64) =>
      (((zeros 64 25 (hashSet 64 h) : ℝ) - 2 ^ 25 * (1 - 1 / 2 ^ 25) ^ n) / (n + 1.6 * 2 ^ p)) ^ 2) ≤
      0.15625 / 2 ^ p := by
  have e : (fun h : Fin n → Fin (2 ^ 64) =>
      (((zeros 64 25 (hashSet 64 h) : ℝ) - 2 ^ 25 * (1 - 1 / 2 ^ 25) ^ n) / (n + 1.6 * 2 ^ p)) ^ 2) =
      fun h => 1 / (n + 1.6 * 2 ^ p) ^ 2 *
        ((zeros 64 25 (hashSet 64 h) : ℝ) - 2 ^ 25 * (1 - 1 / 2 ^ 25) ^ n) ^ 2 := by
    funext h; rw [div_pow]; ring
  rw [e, mean_mul]
  have h3 := zeros_square (n := n) (p := 25) (w := 64) (by omega) (by omega) le_rfl
  have h4 := codes_prob_arith (p := p) (n := n) (δ := 1) one_pos
  rw [one_mul, one_pow, mul_one] at h4
  have hN : (0 : ℝ) < n + 1.6 * 2 ^ p := by positivity
  generalize (2 : ℝ) ^ 25 * ((1 - 1 / 2 ^ 25) ^ n * (1 - (1 - 1 / 2 ^ 25) ^ n)) = v at *
  generalize (n : ℝ) + 1.6 * 2 ^ p = N at *
  calc _ ≤ 1 / N ^ 2 * v := by gcongr
    _ = v / N ^ 2 := by ring
    _ ≤ _ := h4

/-! ## The estimate -/

/-- The relative deviation of the harmonic sum. -/
noncomputable def harmDev (p n : Nat) (h : Fin n → Fin (2 ^ 64)) : ℝ :=
  (harm 64 p h - 2 ^ p * moment 64 p n (1 / 2)) / (2 ^ p * moment 64 p n (1 / 2))

/-- The deviation of the number of empty registers. -/
noncomputable def zerosDev (p n : Nat) (h : Fin n → Fin (2 ^ 64)) : ℝ :=
  zunit p n ((zeros 64 p (hashSet 64 h) : ℝ) - 2 ^ p * (1 - 1 / 2 ^ p) ^ n)

/-- The deviation of the number of unused prefixes. -/
noncomputable def prefixDev (p n : Nat) (h : Fin n → Fin (2 ^ 64)) : ℝ :=
  ((zeros 64 25 (hashSet 64 h) : ℝ) - 2 ^ 25 * (1 - 1 / 2 ^ 25) ^ n) / (n + 1.6 * 2 ^ p)

/-- Sum of the squared deviations, in units of `δ` of `whole_low`. -/
noncomputable def devs (p n : Nat) (h : Fin n → Fin (2 ^ 64)) : ℝ :=
  1.21 * harmDev p n h ^ 2 + if n ≤ 2 * 2 ^ p then zerosDev p n h ^ 2 + prefixDev p n h ^ 2 else 0

theorem devs_ge (h : Fin n → Fin (2 ^ 64)) : 0 ≤ devs p n h ∧
    (11 / 10 * |harmDev p n h|) ^ 2 ≤ devs p n h ∧
    (n ≤ 2 * 2 ^ p → |zerosDev p n h| ^ 2 ≤ devs p n h ∧ |prefixDev p n h| ^ 2 ≤ devs p n h) := by
  unfold devs
  rw [mul_pow, sq_abs, sq_abs, sq_abs]
  have a := sq_nonneg (harmDev p n h)
  have b := sq_nonneg (zerosDev p n h)
  have c := sq_nonneg (prefixDev p n h)
  generalize harmDev p n h ^ 2 = x at *
  generalize zerosDev p n h ^ 2 = y at *
  generalize prefixDev p n h ^ 2 = z at *
  refine ⟨?_, ?_, fun hn => ?_⟩
  · split <;> norm_num only at * <;> linarith
  · split <;> norm_num only at * <;> linarith
  · rw [if_pos hn]
    norm_num only at *
    constructor <;> linarith

theorem mean_devs (h1 : 8 ≤ p) (h2 : p ≤ 18) (hn : n ≤ 6 * 2 ^ p) :
    mean (devs p n) ≤ 2.5 / 2 ^ p := by
  have a := harm_square h1 h2 hn
  have hm : (0 : ℝ) < 1 / 2 ^ p := by positivity
  have hd : ∀ x : ℝ, x / 2 ^ p = x * (1 / 2 ^ p) := fun x => by ring
  rw [hd] at a ⊢
  by_cases hn2 : n ≤ 2 * 2 ^ p
  · have b := zunit_square h1 h2 hn2
    have c := prefix_square (p := p) (n := n)
    rw [hd 0.95] at b
    rw [hd 0.15625] at c
    unfold devs
    simp only [if_pos hn2]
    rw [mean_add, mean_add, mean_mul]
    refine (add_le_add (mul_le_mul_of_nonneg_left a (by norm_num)) (add_le_add b c)).trans ?_
    generalize 1 / (2 : ℝ) ^ p = x at *
    norm_num
    linarith
  · unfold devs
    simp only [if_neg hn2, add_zero]
    rw [mean_mul]
    refine (mul_le_mul_of_nonneg_left a (by norm_num)).trans ?_
    generalize 1 / (2 : ℝ) ^ p = x at *
    norm_num
    linarith

/-- The rare set. -/
def Far (p n : Nat) (h : Fin n → Fin (2 ^ 64)) : Prop :=
  (1 / 10 / (1 + 1 / 10) * (2 ^ p * moment 64 p n (1 / 2)) ≤
      |harm 64 p h - 2 ^ p * moment 64 p n (1 / 2)| ∨
    if n ≤ 2 * 2 ^ p then
      zdev p n (1 / 10) ≤ |(zeros 64 p (hashSet 64 h) : ℝ) - 2 ^ p * (1 - 1 / 2 ^ p) ^ n| else
      ¬ 5 * zeros 64 p (hashSet 64 h) < 2 ^ p) ∨
    (n ≤ 2 * 2 ^ p ∧ 1 / 10 * ((n : ℝ) + 1.6 * 2 ^ p) ≤
      |(zeros 64 25 (hashSet 64 h) : ℝ) - 2 ^ 25 * (1 - 1 / 2 ^ 25) ^ n|)

theorem far_tail (h1 : 8 ≤ p) (h2 : p ≤ 18) (hn : n ≤ 6 * 2 ^ p) :
    fraction (Far p n) ≤ 6 * Real.exp (-(2 ^ p * (1 / 10) ^ 2 / 4)) := by
  have a := harm_tail (loaded_low h1 h2 (w := 64) (by omega) le_rfl hn) (by omega) le_rfl
    (δ := 1 / 10) (by norm_num) le_rfl
  have hx := Real.exp_pos (-(2 ^ p * (1 / 10) ^ 2 / 4))
  unfold Far
  by_cases hn2 : n ≤ 2 * 2 ^ p
  · simp only [if_pos hn2]
    have b := zeros_tail2 (w := 64) h1 (by omega) le_rfl (δ := 1 / 10) (by norm_num) le_rfl hn2
    have c := prefixes_tail (p := p) (n := n) (δ := 1 / 10) (by norm_num) le_rfl
    refine (fraction_or _ _).trans ((add_le_add ((fraction_or _ _).trans (add_le_add a b))
      ((fraction_mono fun h hh => ?_).trans c)).trans (by linarith))
    exact hh.2
  · simp only [if_neg hn2]
    have b := few_tail (w := 64) h1 (by omega) le_rfl (δ := 1 / 10) (by norm_num) le_rfl
      (not_le.1 hn2)
    refine (fraction_mono fun h hh => ?_).trans ((fraction_or _ _).trans ((add_le_add a b).trans
      (by linarith)))
    rcases hh with hh | hh
    · exact hh
    · exact absurd hh.1 hn2

/-- Outside the rare set the error is bounded by the deviations. -/
theorem near_devs (hln : LnSpec ln) (v : Search) (h1 : 8 ≤ p) (h2 : p ≤ 18) (hn : n ≤ 6 * 2 ^ p)
    {h : Fin n → Fin (2 ^ 64)} {y : ℚ} (hy : plusCount ln (Plus.biasOf v) p (hashSet 64 h) = fin y)
    (hfar : ¬ Far p n h) :
    |(y : ℝ) - n| ≤ (1.05 * √(devs p n h) + (0.005 + 4 / 2 ^ p)) * (n + 1.6 * 2 ^ p) := by
  have he := moment_half_pos (w := 64) (p := p) (n := n)
  have hM : 0 < 2 ^ p * moment 64 p n (1 / 2) := by positivity
  have hN : (0 : ℝ) < n + 1.6 * 2 ^ p := by positivity
  unfold Far at hfar
  rw [not_or, not_or, not_le] at hfar
  obtain ⟨⟨f1, f2⟩, f3⟩ := hfar
  -- any `δ` above the three deviations will do
  have step : ∀ δ : ℝ, 0 < δ → δ ≤ 1 / 10 → √(devs p n h) < δ →
      |(y : ℝ) - n| ≤ wholeErr p δ * (n + 1.6 * 2 ^ p) := by
    intro δ hδ0 hδ hlt
    rw [Real.sqrt_lt' hδ0] at hlt
    obtain ⟨-, d1, d2⟩ := devs_ge (p := p) h
    have hraw := raw_good (w := 64) (p := p) (n := n) (by omega) h2 hδ0 (h := h) (by omega) (by
      have g2 := lt_of_pow_lt_pow_left₀ 2 hδ0.le (d1.trans_lt hlt)
      unfold harmDev at g2
      rw [abs_div, abs_of_pos hM, mul_div_assoc', div_lt_iff₀ hM] at g2
      have g3 : 10 / 11 * δ ≤ δ / (1 + δ) := by
        rw [le_div_iff₀ (by linarith)]; nlinarith
      have g4 := mul_le_mul_of_nonneg_right g3 hM.le
      generalize |harm 64 p h - 2 ^ p * moment 64 p n (1 / 2)| = x at *
      generalize 2 ^ p * moment 64 p n (1 / 2) = μ at *
      linarith)
    obtain ⟨y', k1, k2⟩ := whole_low hln v h1 h2 hδ0 hδ hn (hashSet_lt h) (card_codes_le p h) hraw
      (fun hn2 => lt_zdev h1 hδ0 hδ (lt_of_pow_lt_pow_left₀ 2 hδ0.le ((d2 hn2).1.trans_lt hlt)))
      (fun hn2 => by
        rw [if_neg (by omega), not_not] at f2
        exact f2)
      (fun hn2 => by
        have g := lt_of_pow_lt_pow_left₀ 2 hδ0.le ((d2 hn2).2.trans_lt hlt)
        unfold prefixDev at g
        rwa [abs_div, abs_of_pos hN, div_lt_iff₀ hN] at g)
    rw [fin.inj (hy.symm.trans k1)]
    exact k2
  rcases lt_or_ge (√(devs p n h)) (1 / 10) with hlt | hge
  · have hlim : ∀ ε : ℝ, 0 < ε → |(y : ℝ) - n| ≤
        (1.05 * √(devs p n h) + (0.005 + 4 / 2 ^ p)) * (n + 1.6 * 2 ^ p) + ε := by
      intro ε hε
      set t := √(devs p n h) with ht
      have ht0 : 0 ≤ t := Real.sqrt_nonneg _
      set η := ε / (1.05 * (n + 1.6 * 2 ^ p)) with hη
      have hη0 : 0 < η := by positivity
      have k1 := step (min (t + η) (1 / 10)) (lt_min (by linarith) (by norm_num)) (min_le_right _ _)
        (lt_min (by linarith) hlt)
      refine k1.trans ?_
      have k2 : wholeErr p (min (t + η) (1 / 10)) ≤ (1.05 * t + (0.005 + 4 / 2 ^ p)) + 1.05 * η := by
        have := min_le_left (t + η) (1 / 10)
        unfold wholeErr
        generalize min (t + η) (1 / 10) = u at *
        norm_num only at this ⊢
        linarith
      refine (mul_le_mul_of_nonneg_right k2 hN.le).trans (le_of_eq ?_)
      rw [add_mul _ (1.05 * η)]
      congr 1
      rw [hη]; field_simp
    exact le_of_forall_pos_le_add hlim
  · obtain ⟨y', k1, k2⟩ := whole_low hln v h1 h2 (δ := 1 / 10) (by norm_num) le_rfl hn (hashSet_lt h)
      (card_codes_le p h) (raw_good (w := 64) (by omega) h2 (by norm_num) (by omega) f1)
      (fun hn2 => by rw [if_pos hn2, not_le] at f2; exact f2)
      (fun hn2 => by rw [if_neg (by omega), not_not] at f2; exact f2)
      (fun hn2 => by
        rw [not_and, not_le] at f3
        exact f3 hn2)
    rw [fin.inj (hy.symm.trans k1)]
    refine k2.trans (mul_le_mul_of_nonneg_right ?_ hN.le)
    unfold wholeErr
    have : 1.05 * (1 / 10) ≤ 1.05 * √(devs p n h) := by gcongr
    linarith

/-- The centre of the raw estimate for up to `6 m` values. -/
theorem centre_low (h1 : 8 ≤ p) (h2 : p ≤ 18) (hn : n ≤ 6 * 2 ^ p) :
    0 ≤ centre 64 p n ∧ centre 64 p n ≤ 6.1 * 2 ^ p := by
  have hC := centre_pos (w := 64) (n := n) (p := p) (by omega) h2
  refine ⟨hC.le, ?_⟩
  have hn6 : (n : ℝ) / 2 ^ p ≤ 6 := by rw [div_le_iff₀ (by positivity)]; exact_mod_cast hn
  obtain ⟨b1, -⟩ := moment_half_bounds (w := 64) (p := p) (n := n) (by omega) h2 (by omega) hn
  have hE := E_ge hn6
  obtain ⟨-, a2⟩ := alpha_near (p := p) (by omega) h2
  have hm := m_ge h1
  have hw1 : 1.5 / (2 : ℝ) ^ p ≤ 1.5 / 256 := by gcongr
  have hw2 : 0 ≤ 1.06 / (2 : ℝ) ^ p := by positivity
  have hM := moment_half_pos (w := 64) (p := p) (n := n)
  have b2 : 0.1183 ≤ moment 64 p n (1 / 2) := by
    refine le_trans ?_ b1
    have : (0.1183 : ℝ) ≤ (1 - 1.5 / 256) * 0.119 := by norm_num
    refine this.trans (mul_le_mul (by linarith) hE (by norm_num) ?_)
    norm_num at hw1 ⊢; linarith
  unfold centre
  rw [div_le_iff₀ hM]
  have a3 : (alphaQ p : ℝ) ≤ 0.7213 := by
    generalize 1.06 / (2 : ℝ) ^ p = ω at *
    norm_num at a2 ⊢; linarith
  have hm0 : (0 : ℝ) < 2 ^ p := by positivity
  calc (alphaQ p : ℝ) * 2 ^ p ≤ 0.7213 * 2 ^ p := by gcongr
    _ ≤ 6.1 * 0.1183 * 2 ^ p := by gcongr; norm_num
    _ = 6.1 * 2 ^ p * 0.1183 := by ring
    _ ≤ _ := by gcongr

/-- The error unless the harmonic sum is very small. -/
theorem mid_low (hln : LnSpec ln) (v : Search) (h1 : 8 ≤ p) (h2 : p ≤ 18) (hn : n ≤ 6 * 2 ^ p)
    {h : Fin n → Fin (2 ^ 64)} {y : ℚ} (hy : plusCount ln (Plus.biasOf v) p (hashSet 64 h) = fin y)
    (hh : ¬ harm 64 p h ≤ 1 / 2 * (2 ^ p * moment 64 p n (1 / 2))) :
    |(y : ℝ) - n| ≤ 7.7 * (n + 1.6 * 2 ^ p) := by
  have he := moment_half_pos (w := 64) (p := p) (n := n)
  have hM : 0 < 2 ^ p * moment 64 p n (1 / 2) := by positivity
  obtain ⟨Y, k1, k2, _, k3⟩ := plusCount_range hln v (p := p) (by omega) h2 (S := hashSet 64 h)
  rw [fin.inj (hy.symm.trans k1)]
  have k2' : (0 : ℝ) ≤ Y := by exact_mod_cast k2
  have hm := m_ge h1
  have hn0 : (0 : ℝ) ≤ n := Nat.cast_nonneg n
  obtain ⟨c1, c2⟩ := centre_low h1 h2 hn
  have hup : (Y : ℝ) ≤ 12.3 * 2 ^ p := by
    rcases k3 with k3 | k3
    · have k3' := (Rat.cast_le (K := ℝ)).2 k3
      push_cast at k3'
      norm_num
      linarith
    · have hr := raw_ratio (w := 64) (n := n) (p := p) (by omega) h2 (by omega) h
      rw [← k3] at hr
      rw [not_le] at hh
      have hz : 1 / 2 < harm 64 p h / (2 ^ p * moment 64 p n (1 / 2)) := by
        rwa [lt_div_iff₀ hM]
      have hinv : 1 / (harm 64 p h / (2 ^ p * moment 64 p n (1 / 2))) ≤ 2 := by
        rw [div_le_iff₀ (by linarith)]; linarith
      generalize harm 64 p h / (2 ^ p * moment 64 p n (1 / 2)) = z at *
      have hz0 : 0 < z := by linarith
      have h7 : centre 64 p n * (1 / z) ≤ 6.1 * 2 ^ p * 2 :=
        mul_le_mul c2 hinv (by positivity) (by positivity)
      generalize centre 64 p n * (1 / z) = x at *
      have r2 := (abs_le.1 hr).2
      norm_num at r2 h7 ⊢
      linarith
  rw [abs_le]
  norm_num at hup ⊢
  constructor <;> linarith

theorem far_small (h1 : 13 ≤ p) (h2 : p ≤ 18) :
    7.7 ^ 2 * (6 * Real.exp (-(2 ^ p * (1 / 10) ^ 2 / 4))) ≤ 0.02 / 2 ^ p := by
  have key : ∀ k : Nat, (k : ℝ) ≤ 2 ^ p * (1 / 10) ^ 2 / 4 → 7.7 ^ 2 * (6 * (0.36788 : ℝ) ^ k) ≤ 0.02 / 2 ^ p →
      7.7 ^ 2 * (6 * Real.exp (-(2 ^ p * (1 / 10) ^ 2 / 4))) ≤ 0.02 / 2 ^ p := fun k a b => by
    have := exp_neg_le' a; linarith
  interval_cases p
  · exact key 20 (by norm_num) (by norm_num)
  all_goals exact key 40 (by norm_num) (by norm_num)

/-- The mean square of the error for up to `6 m` values. -/
theorem low_square (hln : LnSpec ln) (v : Search) (h1 : 13 ≤ p) (h2 : p ≤ 18) (hn : n ≤ 6 * 2 ^ p)
    {y : (Fin n → Fin (2 ^ 64)) → ℚ} (hy : ∀ h, plusCount ln (Plus.biasOf v) p (hashSet 64 h) = fin (y h)) :
    mean (fun h => ((y h : ℝ) - n) ^ 2) ≤
      ((1.67 / √(2 ^ p) + 0.005 + 4 / 2 ^ p) * (n + 1.6 * 2 ^ p)) ^ 2 := by
  have hm0 : (0 : ℝ) < 2 ^ p := by positivity
  have hs : 0 < √((2 : ℝ) ^ p) := Real.sqrt_pos.2 hm0
  have hx : 0 < 1 / √((2 : ℝ) ^ p) := by positivity
  have hx2 : (1 / √((2 : ℝ) ^ p)) ^ 2 = 1 / 2 ^ p := by
    rw [div_pow, Real.sq_sqrt hm0.le, one_pow]
  have hm : (8192 : ℝ) ≤ 2 ^ p := by
    calc (8192 : ℝ) = 2 ^ 13 := by norm_num
      _ ≤ 2 ^ p := pow_le_pow_right₀ (by norm_num) h1
  have hm18 : (2 : ℝ) ^ p ≤ 2 ^ 18 := pow_le_pow_right₀ (by norm_num) h2
  have hN : (0 : ℝ) < n + 1.6 * 2 ^ p := by positivity
  have hn0 : (0 : ℝ) ≤ n := Nat.cast_nonneg n
  have hn6 : (n : ℝ) ≤ 6 * 2 ^ p := by exact_mod_cast hn
  have key := square_near (n := n) (T := fun h => √(devs p n h)) (Y := fun h => (y h : ℝ) - n)
    (bad := Far p n) (half := fun h => harm 64 p h ≤ 1 / 2 * (2 ^ p * moment 64 p n (1 / 2)))
    (a := 1.05) (b := 0.005 + 4 / 2 ^ p) (N := n + 1.6 * 2 ^ p) (A := 7.7 * (n + 1.6 * 2 ^ p))
    (W := 187 * 2 ^ 57) (r := 1.5812 * (1 / √(2 ^ p))) (fun h => Real.sqrt_nonneg _) (by norm_num)
    (by positivity) hN.le (by positivity) (by
      have e : (fun h : Fin n → Fin (2 ^ 64) => √(devs p n h) ^ 2) = devs p n := by
        funext h; exact Real.sq_sqrt (devs_ge h).1
      rw [e, mul_pow, hx2]
      refine (mean_devs (by omega) h2 hn).trans ?_
      rw [mul_one_div]
      gcongr
      norm_num)
    (fun h hh => near_devs hln v (by omega) h2 hn (hy h) hh)
    (fun h hh => mid_low hln v (by omega) h2 hn (hy h) hh)
    (fun h => by
      obtain ⟨Y, k1, k2, k3, _⟩ := plusCount_range hln v (p := p) (by omega) h2 (S := hashSet 64 h)
      rw [fin.inj ((hy h).symm.trans k1)]
      have k2' : (0 : ℝ) ≤ Y := by exact_mod_cast k2
      have k3' := (Rat.cast_le (K := ℝ)).2 k3
      push_cast at k3'
      have : (n : ℝ) ≤ 187 * 2 ^ 57 := by
        have e : (6 : ℝ) * 2 ^ 18 ≤ 187 * 2 ^ 57 := by norm_num
        linarith
      rw [abs_le]
      constructor <;> linarith)
  refine key.trans ?_
  have b1 := far_tail (n := n) (by omega) h2 hn
  have b2 := harm_half (relVar_le (w := 64) (n := n) (by omega) (by omega) h2 hn) (by omega) le_rfl
  have b3 := far_small h1 h2
  have c1 : (7.7 * ((n : ℝ) + 1.6 * 2 ^ p)) ^ 2 * fraction (Far p n) ≤
      0.02 / 2 ^ p * (n + 1.6 * 2 ^ p) ^ 2 := by
    rw [mul_pow]
    calc _ = 7.7 ^ 2 * fraction (Far p n) * ((n : ℝ) + 1.6 * 2 ^ p) ^ 2 := by ring
      _ ≤ 7.7 ^ 2 * (6 * Real.exp (-(2 ^ p * (1 / 10) ^ 2 / 4))) * ((n : ℝ) + 1.6 * 2 ^ p) ^ 2 := by gcongr
      _ ≤ _ := by gcongr
  have c2 : (187 * 2 ^ 57 : ℝ) ^ 2 *
      fraction (fun h : Fin n → Fin (2 ^ 64) => harm 64 p h ≤ 1 / 2 * (2 ^ p * moment 64 p n (1 / 2))) ≤
      0.001 / 2 ^ p * (n + 1.6 * 2 ^ p) ^ 2 := by
    have d1 := exp_neg_le (x := 0.078 * 2 ^ p) (k := 250) (by norm_num at hm ⊢; linarith)
    have d2 : (1 : ℝ) ≤ ((n : ℝ) + 1.6 * 2 ^ p) ^ 2 := one_le_pow₀ (by norm_num; linarith)
    have d3 : (187 * 2 ^ 57 : ℝ) ^ 2 * 0.4 ^ 250 ≤ 0.001 / 2 ^ 18 := by norm_num
    calc _ ≤ (187 * 2 ^ 57 : ℝ) ^ 2 * 0.4 ^ 250 := by
          refine mul_le_mul_of_nonneg_left (b2.trans d1) (by positivity)
      _ ≤ 0.001 / 2 ^ 18 * 1 := by rw [mul_one]; exact d3
      _ ≤ _ := by gcongr
  have e : ((1.05 * (1.5812 * (1 / √((2 : ℝ) ^ p))) + (0.005 + 4 / 2 ^ p)) * (n + 1.6 * 2 ^ p)) ^ 2 +
      0.02 / 2 ^ p * (n + 1.6 * 2 ^ p) ^ 2 + 0.001 / 2 ^ p * (n + 1.6 * 2 ^ p) ^ 2 ≤
      ((1.67 / √(2 ^ p) + 0.005 + 4 / 2 ^ p) * ((n : ℝ) + 1.6 * 2 ^ p)) ^ 2 := by
    rw [mul_pow, mul_pow _ ((n : ℝ) + 1.6 * 2 ^ p), ← add_mul, ← add_mul]
    refine mul_le_mul_of_nonneg_right ?_ (sq_nonneg _)
    have e1 : ∀ a : ℝ, a / 2 ^ p = a * (1 / √((2 : ℝ) ^ p)) ^ 2 := fun a => by rw [hx2]; ring
    have e2 : 1.67 / √((2 : ℝ) ^ p) = 1.67 * (1 / √(2 ^ p)) := by ring
    rw [e1 0.02, e1 0.001, e2]
    have hb : 0 ≤ 0.005 + 4 / (2 : ℝ) ^ p := by positivity
    rw [add_assoc (1.67 * _)]
    generalize 0.005 + 4 / (2 : ℝ) ^ p = b at *
    generalize 1 / √((2 : ℝ) ^ p) = x at *
    norm_num
    nlinarith [mul_nonneg hb hx.le, sq_nonneg x]
  linarith

end HLL
