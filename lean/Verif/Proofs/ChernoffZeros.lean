import Verif.Proofs.Chernoff

/-! # Exponential bounds on the deviation of the number of empty registers -/

namespace HLL
open Spec F64 Exps Finset

variable {w p n : Nat} {δ : ℝ}

/-- The mean of a quadratic polynomial in the indicator of an empty register. -/
theorem mean_indicator {j : Nat} (hp : p ≤ w) (hw : w ≤ 64) (hj : j < 2 ^ p) (a b : ℝ) {q : ℝ}
    (hq : q = (1 - 1 / 2 ^ p) ^ n) :
    mean (fun h : Fin n → Fin (2 ^ 64) =>
      1 + a * ((if reg w p (hashSet w h) j ≤ 0 then (1 : ℝ) else 0) - q) +
        b * ((if reg w p (hashSet w h) j ≤ 0 then (1 : ℝ) else 0) - q) ^ 2) = 1 + b * (q * (1 - q)) := by
  have m1 := mean_reg_le (w := w) (p := p) (k := 0) (j := j) n (by omega) hw hj
  rw [Nat.add_zero, ← hq] at m1
  have e : (fun h : Fin n → Fin (2 ^ 64) =>
      1 + a * ((if reg w p (hashSet w h) j ≤ 0 then (1 : ℝ) else 0) - q) +
        b * ((if reg w p (hashSet w h) j ≤ 0 then (1 : ℝ) else 0) - q) ^ 2) = fun h =>
      (1 - a * q + b * q ^ 2) +
        (a + b * (1 - 2 * q)) * (if reg w p (hashSet w h) j ≤ 0 then (1 : ℝ) else 0) := by
    funext h
    split <;> ring
  rw [e, mean_add, mean_const, mean_mul, m1]
  ring

theorem mgf_zero {j : Nat} (hp : p ≤ w) (hw : w ≤ 64) (hj : j < 2 ^ p) {lam s : ℝ} (hl : 0 ≤ lam)
    (hs : s = lam ∨ s = -lam) {q : ℝ} (hq : q = (1 - 1 / 2 ^ p) ^ n) (hq0 : 0 ≤ q) (hq1 : q ≤ 1) :
    mean (fun h : Fin n → Fin (2 ^ 64) =>
      Real.exp (s * ((if reg w p (hashSet w h) j ≤ 0 then (1 : ℝ) else 0) - q))) ≤
      Real.exp (lam ^ 2 / 2 * Real.exp lam * (q * (1 - q))) := by
  refine (mean_mono (g := fun h : Fin n → Fin (2 ^ 64) =>
      1 + s * ((if reg w p (hashSet w h) j ≤ 0 then (1 : ℝ) else 0) - q) +
        (lam ^ 2 / 2 * Real.exp lam) *
          ((if reg w p (hashSet w h) j ≤ 0 then (1 : ℝ) else 0) - q) ^ 2) fun h => ?_).trans ?_
  · have hs2 : s ^ 2 = lam ^ 2 := by rcases hs with rfl | rfl <;> ring
    refine (exp_le_quad hl ?_).trans (le_of_eq ?_)
    · split <;> rcases hs with rfl | rfl <;> nlinarith
    · rw [mul_pow, hs2]; ring
  · rw [mean_indicator hp hw hj _ _ hq, add_comm]
    exact Real.add_one_le_exp _

/-- **Exponential bound on the deviation of the number of empty registers.** -/
theorem zeros_tail (hp : p ≤ w) (hw : w ≤ 64) {q : ℝ} (hq : q = (1 - 1 / 2 ^ p) ^ n) {lam : ℝ}
    (hl : 0 ≤ lam) (t : ℝ) :
    fraction (fun h : Fin n → Fin (2 ^ 64) => t ≤ |(zeros w p (hashSet w h) : ℝ) - 2 ^ p * q|) ≤
      2 * Real.exp (2 ^ p * (lam ^ 2 / 2 * Real.exp lam * (q * (1 - q))) - lam * t) := by
  have h0 : (0 : ℝ) ≤ 1 - 1 / 2 ^ p := by
    rw [sub_nonneg, div_le_one (by positivity)]
    exact one_le_pow₀ (by norm_num)
  have hq0 : 0 ≤ q := by rw [hq]; positivity
  have hq1 : q ≤ 1 := by
    rw [hq]
    have : (0 : ℝ) ≤ 1 / 2 ^ p := by positivity
    exact pow_le_one₀ h0 (by linarith)
  have hsum : ∀ (h : Fin n → Fin (2 ^ 64)) (s : ℝ),
      ∑ j ∈ range (2 ^ p), s * ((if reg w p (hashSet w h) j ≤ 0 then (1 : ℝ) else 0) - q) =
        s * ((zeros w p (hashSet w h) : ℝ) - 2 ^ p * q) := by
    intro h s
    rw [← mul_sum, sum_sub_distrib, sum_const, card_range, nsmul_eq_mul, zeros, ← sum_filter]
    simp only [Nat.le_zero, sum_const, nsmul_eq_mul, mul_one]
    push_cast
    rfl
  have anti : Antitone fun k : Nat => if k ≤ 0 then (1 : ℝ) else 0 := by
    intro a b hab
    simp only
    split
    · rw [if_pos (by omega)]
    · split <;> norm_num
  have low := tail_sum (w := w) (p := p) (n := n)
    (ψ := fun k => -lam * ((if k ≤ 0 then (1 : ℝ) else 0) - q)) (Or.inl fun a b hab => by
      have := anti hab
      simp only at this ⊢
      nlinarith) (fun j hj => mgf_zero hp hw hj hl (Or.inr rfl) hq hq0 hq1) (lam * t)
  have upp := tail_sum (w := w) (p := p) (n := n)
    (ψ := fun k => lam * ((if k ≤ 0 then (1 : ℝ) else 0) - q)) (Or.inr fun a b hab => by
      have := anti hab
      simp only at this ⊢
      nlinarith) (fun j hj => mgf_zero hp hw hj hl (Or.inl rfl) hq hq0 hq1) (lam * t)
  rw [two_mul]
  refine le_trans (fraction_mono fun h hh => ?_) ((fraction_or _ _).trans (add_le_add low upp))
  rw [hsum, hsum]
  rcases le_abs.1 hh with h1 | h1
  · right; gcongr
  · left; rw [neg_mul, ← mul_neg]; gcongr

/-- The exponent for the deviation allowed in linear counting. -/
theorem zeros_exponent {τ q m d : ℝ} (hm : 0 ≤ m) (hτ0 : 0 ≤ τ) (hτ : τ ≤ 0.32) (hq0 : 0 ≤ q)
    (h : d ≤ 0.38 * q * τ ^ 2) :
    m * ((0.8 * τ) ^ 2 / 2 * Real.exp (0.8 * τ) * (q * (1 - q))) - 0.8 * τ * (τ * (m * q)) ≤ -(m * d) := by
  have hx : Real.exp (0.8 * τ) ≤ 1.3 := by
    have h0 : 0 ≤ 0.8 * τ := by positivity
    have h1 := exp_cubic h0
    have hs : 0.8 * τ ≤ 0.256 := by norm_num at hτ ⊢; linarith
    generalize 0.8 * τ = x at *
    have h2 : x ^ 2 ≤ 0.256 ^ 2 := pow_le_pow_left₀ h0 hs 2
    have h3 : x ^ 3 ≤ 0.256 ^ 3 := pow_le_pow_left₀ h0 hs 3
    have h4 := Real.exp_pos x
    norm_num at hs h2 h3 ⊢
    nlinarith
  have h1 : (0.8 * τ) ^ 2 / 2 * Real.exp (0.8 * τ) * (q * (1 - q)) ≤ (0.8 * τ) ^ 2 / 2 * 1.3 * q := by
    have h2 : q * (1 - q) ≤ q := by nlinarith
    have h3 : 0 ≤ (0.8 * τ) ^ 2 / 2 * Real.exp (0.8 * τ) := by positivity
    calc _ ≤ (0.8 * τ) ^ 2 / 2 * Real.exp (0.8 * τ) * q := by gcongr
      _ ≤ _ := by gcongr
  have h2 : 0.8 * τ * (τ * (m * q)) = m * (0.8 * q * τ ^ 2) := by ring
  rw [h2, ← mul_sub, ← mul_neg]
  refine mul_le_mul_of_nonneg_left ?_ hm
  have h3 : 0 ≤ q * τ ^ 2 := by positivity
  have h4 : (0.8 * τ) ^ 2 / 2 * 1.3 * q = 0.416 * (q * τ ^ 2) := by ring
  rw [h4] at h1
  have h5 : 0.8 * q * τ ^ 2 = 0.8 * (q * τ ^ 2) := by ring
  have h6 : 0.38 * q * τ ^ 2 = 0.38 * (q * τ ^ 2) := by ring
  rw [h5]; rw [h6] at h
  norm_num at *
  linarith

/-- `δ s/(1 + δ s)` squared. -/
theorem tau_facts {s : ℝ} (hδ0 : 0 < δ) (hδ : δ ≤ 1 / 10) (hs0 : 0 < s) (hs : s ≤ 4.6) :
    0 ≤ δ * s / (1 + δ * s) ∧ δ * s / (1 + δ * s) ≤ 0.32 ∧
      δ ^ 2 * (s / (1 + s / 10)) ^ 2 ≤ (δ * s / (1 + δ * s)) ^ 2 := by
  have h1 : 0 < δ * s := by positivity
  have h2 : δ * s ≤ s / 10 := by
    have := mul_le_mul_of_nonneg_right hδ hs0.le
    linarith
  refine ⟨by positivity, ?_, ?_⟩
  · rw [div_le_iff₀ (by linarith)]
    norm_num at *; linarith
  · rw [← mul_pow]
    refine pow_le_pow_left₀ (by positivity) ?_ 2
    rw [← mul_div_assoc]
    gcongr

theorem q_chord {l q m c L : ℝ} (hl : l ≤ L) (hL : L ≤ 3) (hm : 256 ≤ m)
    (hc : Real.exp l ≤ 1 + c * l) (hq : Real.exp (-l) * (1 - l / m) ≤ q) :
    0.988 ≤ (1 + c * l) * q := by
  have h4 : 0.988 ≤ 1 - l / m := by
    have : l / m ≤ 3 / 256 := div_le_div₀ (by norm_num) (by linarith) (by norm_num) hm
    norm_num at this ⊢; linarith
  have h6 : Real.exp l * Real.exp (-l) = 1 := by rw [← Real.exp_add]; simp
  have h7 : 1 ≤ (1 + c * l) * Real.exp (-l) :=
    h6.symm.le.trans (mul_le_mul_of_nonneg_right hc (Real.exp_pos _).le)
  have h8 : 0 ≤ 1 + c * l := (Real.exp_pos l).le.trans hc
  calc (0.988 : ℝ) = 1 * 0.988 := by ring
    _ ≤ (1 + c * l) * Real.exp (-l) * (1 - l / m) := by
        refine mul_le_mul h7 h4 (by norm_num) (by positivity)
    _ = (1 + c * l) * (Real.exp (-l) * (1 - l / m)) := by ring
    _ ≤ _ := by gcongr

theorem low_arith2 {l q : ℝ} (hl0 : 0 ≤ l) (hl : l ≤ 2)
    (hq : 0.988 ≤ (1 + 3.1946 * l) * q) : 0.25 ≤ 0.38 * q * ((l + 1.6) / (1 + (l + 1.6) / 10)) ^ 2 := by
  rw [div_pow, ← mul_div_assoc, le_div_iff₀ (by positivity)]
  have h1 : 0.25 * (1 + (l + 1.6) / 10) ^ 2 * (1 + 3.1946 * l) ≤ 0.38 * 0.988 * (l + 1.6) ^ 2 := by
    norm_num
    nlinarith [mul_nonneg hl0 (sub_nonneg.2 hl), mul_nonneg hl0 (mul_nonneg hl0 (sub_nonneg.2 hl))]
  have h2 : 0 < 1 + 3.1946 * l := by positivity
  refine le_of_mul_le_mul_right (h1.trans ?_) h2
  calc 0.38 * 0.988 * (l + 1.6) ^ 2 = 0.988 * (0.38 * (l + 1.6) ^ 2) := by ring
    _ ≤ (1 + 3.1946 * l) * q * (0.38 * (l + 1.6) ^ 2) := by gcongr
    _ = _ := by ring

theorem low_arith3 {l q : ℝ} (hl0 : 0 ≤ l) (hl : l ≤ 3)
    (hq : 0.988 ≤ (1 + 6.362 * l) * q) : 1 / 6 ≤ 0.38 * q * ((l + 1.6) / (1 + (l + 1.6) / 10)) ^ 2 := by
  rw [div_pow, ← mul_div_assoc, le_div_iff₀ (by positivity)]
  have h1 : 1 / 6 * (1 + (l + 1.6) / 10) ^ 2 * (1 + 6.362 * l) ≤ 0.38 * 0.988 * (l + 1.6) ^ 2 := by
    norm_num
    nlinarith [mul_nonneg hl0 (sub_nonneg.2 hl), mul_nonneg hl0 (mul_nonneg hl0 (sub_nonneg.2 hl)),
      sq_nonneg (l - 3), sq_nonneg (l - 2)]
  have h2 : 0 < 1 + 6.362 * l := by positivity
  refine le_of_mul_le_mul_right (h1.trans ?_) h2
  calc 0.38 * 0.988 * (l + 1.6) ^ 2 = 0.988 * (0.38 * (l + 1.6) ^ 2) := by ring
    _ ≤ (1 + 6.362 * l) * q * (0.38 * (l + 1.6) ^ 2) := by gcongr
    _ = _ := by ring

/-- The deviation allowed in linear counting. -/
theorem zdev_tail (h1 : 8 ≤ p) (hp : p ≤ w) (hw : w ≤ 64) (hδ0 : 0 < δ) (hδ : δ ≤ 1 / 10) {c : ℝ}
    (hl3 : (n : ℝ) / 2 ^ p ≤ 3)
    (hc : c ≤ 0.38 * (1 - 1 / 2 ^ p) ^ n * ((n / 2 ^ p + 1.6) / (1 + (n / 2 ^ p + 1.6) / 10)) ^ 2) :
    fraction (fun h : Fin n → Fin (2 ^ 64) =>
        zdev p n δ ≤ |(zeros w p (hashSet w h) : ℝ) - 2 ^ p * (1 - 1 / 2 ^ p) ^ n|) ≤
      2 * Real.exp (-(2 ^ p * (c * δ ^ 2))) := by
  have hl0 : (0 : ℝ) ≤ n / 2 ^ p := by positivity
  have hs0 : 0 < (n : ℝ) / 2 ^ p + 1.6 := by positivity
  obtain ⟨t0, t1, t2⟩ := tau_facts hδ0 hδ hs0 (by norm_num at *; linarith)
  have hq0 := (q_pos (p := p) (n := n) h1).le
  refine (zeros_tail hp hw rfl (lam := 0.8 * (δ * (n / 2 ^ p + 1.6) / (1 + δ * (n / 2 ^ p + 1.6))))
    (by positivity) _).trans ?_
  unfold zdev
  generalize (1 - 1 / (2 : ℝ) ^ p) ^ n = q at *
  generalize δ * ((n : ℝ) / 2 ^ p + 1.6) / (1 + δ * (n / 2 ^ p + 1.6)) = τ at *
  generalize (((n : ℝ) / 2 ^ p + 1.6) / (1 + (n / 2 ^ p + 1.6) / 10)) ^ 2 = z at *
  refine mul_le_mul_of_nonneg_left (Real.exp_le_exp.2 ?_) (by norm_num)
  refine zeros_exponent (by positivity) t0 t1 hq0 ?_
  calc c * δ ^ 2 ≤ 0.38 * q * z * δ ^ 2 := by gcongr
    _ = 0.38 * q * (δ ^ 2 * z) := by ring
    _ ≤ _ := by gcongr

theorem zeros_tail2 (h1 : 8 ≤ p) (hp : p ≤ w) (hw : w ≤ 64) (hδ0 : 0 < δ) (hδ : δ ≤ 1 / 10)
    (hn : n ≤ 2 * 2 ^ p) :
    fraction (fun h : Fin n → Fin (2 ^ 64) =>
        zdev p n δ ≤ |(zeros w p (hashSet w h) : ℝ) - 2 ^ p * (1 - 1 / 2 ^ p) ^ n|) ≤
      2 * Real.exp (-(2 ^ p * δ ^ 2 / 4)) := by
  have hl2 : (n : ℝ) / 2 ^ p ≤ 2 := by rw [div_le_iff₀ (by positivity)]; exact_mod_cast hn
  have hl0 : (0 : ℝ) ≤ n / 2 ^ p := by positivity
  have h3 := q_chord hl2 (by norm_num) (m_ge h1) (exp_chord hl0 hl2) (q_lower h1)
  refine (zdev_tail h1 hp hw hδ0 hδ (by linarith) (low_arith2 hl0 hl2 h3)).trans
    (le_of_eq ?_)
  congr 3; norm_num; ring

theorem zeros_tail3 (h1 : 8 ≤ p) (hp : p ≤ w) (hw : w ≤ 64) (hδ0 : 0 < δ) (hδ : δ ≤ 1 / 10)
    (hn : n ≤ 3 * 2 ^ p) :
    fraction (fun h : Fin n → Fin (2 ^ 64) =>
        zdev p n δ ≤ |(zeros w p (hashSet w h) : ℝ) - 2 ^ p * (1 - 1 / 2 ^ p) ^ n|) ≤
      2 * Real.exp (-(2 ^ p * δ ^ 2 / 6)) := by
  have hl2 : (n : ℝ) / 2 ^ p ≤ 3 := by rw [div_le_iff₀ (by positivity)]; exact_mod_cast hn
  have hl0 : (0 : ℝ) ≤ n / 2 ^ p := by positivity
  have h3 := q_chord hl2 (by norm_num) (m_ge h1) (exp_chord3 hl0 hl2) (q_lower h1)
  refine (zdev_tail h1 hp hw hδ0 hδ hl2 (low_arith3 hl0 hl2 h3)).trans
    (le_of_eq ?_)
  congr 3; ring

/-- The number of distinct prefixes of 25 bits. -/
theorem prefixes_tail (hδ0 : 0 < δ) (hδ : δ ≤ 1 / 10) :
    fraction (fun h : Fin n → Fin (2 ^ 64) =>
        δ * (n + 1.6 * 2 ^ p) ≤ |(zeros 64 25 (hashSet 64 h) : ℝ) - 2 ^ 25 * (1 - 1 / 2 ^ 25) ^ n|) ≤
      2 * Real.exp (-(2 ^ p * δ ^ 2 / 4)) := by
  refine (zeros_tail (p := 25) (w := 64) (n := n) (by norm_num) le_rfl rfl (lam := δ) hδ0.le _).trans
    (mul_le_mul_of_nonneg_left (Real.exp_le_exp.2 ?_) (by norm_num))
  have hq1 : 1 - (n : ℝ) / 2 ^ 25 ≤ (1 - 1 / 2 ^ 25) ^ n := by
    have := one_add_mul_le_pow (a := -(1 / (2 : ℝ) ^ 25)) (by norm_num) n
    calc 1 - (n : ℝ) / 2 ^ 25 = 1 + n * -(1 / 2 ^ 25) := by ring
      _ ≤ (1 + -(1 / 2 ^ 25)) ^ n := this
      _ = _ := by ring
  have hq2 : (1 - 1 / (2 : ℝ) ^ 25) ^ n ≤ 1 := pow_le_one₀ (by norm_num) (by norm_num)
  have hq0 : 0 ≤ (1 - 1 / (2 : ℝ) ^ 25) ^ n := pow_nonneg (by norm_num) n
  generalize (1 - 1 / (2 : ℝ) ^ 25) ^ n = q at *
  have h1 : 2 ^ 25 * (q * (1 - q)) ≤ n := by
    have h2 : q * (1 - q) ≤ 1 - q := by nlinarith
    have h3 : (2 : ℝ) ^ 25 * (1 - q) ≤ n := by
      norm_num at hq1 ⊢; linarith
    norm_num at h3 ⊢; linarith
  have hx : Real.exp δ ≤ 2 := by
    refine (Real.exp_le_exp.2 (hδ.trans (by norm_num : (1 / 10 : ℝ) ≤ 1 / 2))).trans ?_
    have := Real.exp_one_lt_d9
    have h2 : Real.exp (1 / 2) * Real.exp (1 / 2) = Real.exp 1 := by rw [← Real.exp_add]; norm_num
    by_contra h3
    rw [not_le] at h3
    nlinarith
  have hn0 : (0 : ℝ) ≤ n := by positivity
  calc 2 ^ 25 * (δ ^ 2 / 2 * Real.exp δ * (q * (1 - q))) - δ * (δ * (n + 1.6 * 2 ^ p))
      = δ ^ 2 / 2 * Real.exp δ * (2 ^ 25 * (q * (1 - q))) - δ * (δ * (n + 1.6 * 2 ^ p)) := by ring
    _ ≤ δ ^ 2 / 2 * 2 * n - δ * (δ * (n + 1.6 * 2 ^ p)) := by gcongr
    _ = -(1.6 * (2 ^ p * δ ^ 2)) := by ring
    _ ≤ _ := by
      have : 0 ≤ (2 : ℝ) ^ p * δ ^ 2 := by positivity
      norm_num; linarith

/-- With more than `2 m` values fewer than a fifth of the registers are empty. -/
theorem few_tail (h1 : 8 ≤ p) (hp : p ≤ w) (hw : w ≤ 64) (hδ0 : 0 < δ) (hδ : δ ≤ 1 / 10)
    (hn : 2 * 2 ^ p < n) :
    fraction (fun h : Fin n → Fin (2 ^ 64) => ¬ 5 * zeros w p (hashSet w h) < 2 ^ p) ≤
      2 * Real.exp (-(2 ^ p * δ ^ 2 / 4)) := by
  have hm : (0 : ℝ) < 2 ^ p := by positivity
  have hq : (1 - 1 / (2 : ℝ) ^ p) ^ n ≤ 0.1354 := by
    refine ((q_upper h1).trans (Real.exp_le_exp.2 ?_)).trans exp_neg_two_le
    rw [neg_le_neg_iff, le_div_iff₀ hm]
    exact_mod_cast hn.le
  have hq0 := q_pos (n := n) h1
  refine le_trans (fraction_mono fun h hh => ?_)
    ((zeros_tail (w := w) (p := p) (n := n) hp hw rfl (lam := 0.3) (by norm_num)
      (0.0646 * 2 ^ p)).trans ?_)
  · by_contra hcon
    apply hh
    rw [not_le] at hcon
    have h3 := (abs_lt.1 hcon).2
    have h4 : (2 : ℝ) ^ p * (1 - 1 / 2 ^ p) ^ n ≤ 2 ^ p * 0.1354 := by gcongr
    have : 5 * (zeros w p (hashSet w h) : ℝ) < 2 ^ p := by
      generalize (2 : ℝ) ^ p * (1 - 1 / 2 ^ p) ^ n = μ at *
      norm_num at h3 h4; linarith
    exact_mod_cast this
  · refine mul_le_mul_of_nonneg_left (Real.exp_le_exp.2 ?_) (by norm_num)
    generalize (1 - 1 / (2 : ℝ) ^ p) ^ n = q at *
    generalize (2 : ℝ) ^ p = m at *
    have hd : δ ^ 2 ≤ 0.01 := by
      have : δ ^ 2 ≤ (1 / 10) ^ 2 := by gcongr
      norm_num at this ⊢; linarith
    have hx : Real.exp 0.3 ≤ 2 := by
      refine (Real.exp_le_exp.2 (by norm_num : (0.3 : ℝ) ≤ 1 / 2)).trans ?_
      have := Real.exp_one_lt_d9
      have h2 : Real.exp (1 / 2) * Real.exp (1 / 2) = Real.exp 1 := by rw [← Real.exp_add]; norm_num
      by_contra h3
      rw [not_le] at h3
      nlinarith
    have h3 : q * (1 - q) ≤ 0.1354 := by nlinarith
    have h3' : 0 ≤ q * (1 - q) := by norm_num at hq; nlinarith
    have h4 : 0.3 ^ 2 / 2 * Real.exp 0.3 * (q * (1 - q)) ≤ 0.3 ^ 2 / 2 * 2 * 0.1354 := by gcongr
    have h5 : m * δ ^ 2 ≤ m * 0.01 := by gcongr
    have h6 := mul_le_mul_of_nonneg_left h4 hm.le
    norm_num at h5 h6 ⊢
    linarith

end HLL
