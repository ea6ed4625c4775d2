import Verif.Proofs.Moments
import Verif.Props.Estimator
import Verif.Props.Accuracy

/-! # Accuracy of the raw estimate when the harmonic sum is near its average -/

namespace HLL
open Spec F64

theorem harm_eq {w p n : Nat} (h : Fin n → Fin (2 ^ 64)) :
    ((hexact (regs w p (hashSet w h)) : ℚ) : ℝ) = harm w p h := by
  rw [hexact, regs, harm, List.map_map]
  generalize 2 ^ p = k
  induction k with
  | zero => simp
  | succ k ih =>
    rw [List.range_succ, List.map_append, List.sum_append, Finset.sum_range_succ, ← ih]
    simp

/-- The computed raw estimate and the exact one. -/
theorem raw_rel {p : Nat} (hp1 : 4 ≤ p) (hp2 : p ≤ 18) {M : List Nat} (hM : Regs p M) :
    0 < hexact M ∧ |rawQ p (hsum 0 M) - alphaQ p * (2 ^ p * 2 ^ p) / hexact M| ≤
      alphaQ p * (2 ^ p * 2 ^ p) / hexact M / 2 ^ 32 := by
  obtain ⟨_, hb2, hb3⟩ := hM.hsum_bounds hp2
  obtain ⟨_, ha1, ha2⟩ := alpha_facts hp1 hp2
  have h18 : 2 ^ p ≤ 2 ^ 18 := Nat.pow_le_pow_right (by norm_num) hp2
  have he := hsum_err M 0 le_rfl rnd_zero (fun x hx => by have := hM.lt x hx; omega)
  rw [zero_add, hM.length] at he
  have hpw := one_add_pow_sub h18
  have hH0 := hexact_nonneg M
  have hm1 : (1 : ℚ) ≤ 2 ^ p := one_le_pow₀ (by norm_num)
  have hm2 : (2 : ℚ) ^ p ≤ 2 ^ 18 := pow_le_pow_right₀ (by norm_num) hp2
  have hv : (1 + 1 / 2 ^ 53 : ℚ) ^ 2 ^ p - 1 ≤ 1 / 2 ^ 34 := by
    refine hpw.trans ?_
    push_cast
    have : (2 : ℚ) ^ p / 2 ^ 53 * (1 + 1 / 2 ^ 34) ≤ 2 ^ 18 / 2 ^ 53 * (1 + 1 / 2 ^ 34) := by gcongr
    refine this.trans (by norm_num)
  have he' : |hsum 0 M - hexact M| ≤ hexact M * (1 / 2 ^ 34) :=
    he.trans (mul_le_mul_of_nonneg_left hv hH0)
  have hA : (1 / 2 : ℚ) ≤ alphaQ p * (2 ^ p * 2 ^ p) := by
    have h1 : (1 : ℚ) ≤ 2 ^ p * 2 ^ p := by nlinarith
    nlinarith
  have hN := abs_rnd_sub_le_rel (K := ℚ) (x := alphaQ p * (2 ^ p * 2 ^ p)) (by
    rw [abs_of_pos (by linarith)]
    refine le_trans (le_trans ?_ (by norm_num : (2 : ℚ) ^ (-1 : ℤ) ≤ 1 / 2)) hA
    exact zpow_le_zpow_right₀ (by norm_num) (by norm_num))
  rw [abs_of_pos (a := alphaQ p * (2 ^ p * 2 ^ p)) (by linarith)] at hN
  simp only [Rat.cast_id] at hN
  unfold rawQ
  generalize alphaQ p * (2 ^ p * 2 ^ p) = A at *
  generalize rnd A = N at *
  generalize hexact M = H at *
  generalize hsum 0 M = h at *
  have hh0 : 0 < h := lt_of_lt_of_le (by norm_num) hb2
  have hH : 0 < H := by
    rcases eq_or_lt_of_le hH0 with h0 | h0
    · rw [← h0] at he'; simp at he'; linarith
    · exact h0
  refine ⟨hH, ?_⟩
  have hN1 : 1 / 4 ≤ N := by
    have := (abs_le.1 hN).1
    norm_num at this ⊢; linarith
  have hr0 : (1 / 2 ^ 40 : ℚ) ≤ N / h := by
    rw [le_div_iff₀ hh0]
    have : h ≤ 2 ^ 18 := hb3.trans hm2
    norm_num at this ⊢; linarith
  have hr := abs_rnd_sub_le_rel (K := ℚ) (x := N / h) (by
    rw [abs_of_pos (by positivity)]
    refine le_trans (le_trans ?_ (by norm_num : (2 : ℚ) ^ (-40 : ℤ) ≤ 1 / 2 ^ 40)) hr0
    exact zpow_le_zpow_right₀ (by norm_num) (by norm_num))
  rw [abs_of_pos (a := N / h) (by positivity)] at hr
  simp only [Rat.cast_id] at hr
  generalize rnd (N / h) = Y at *
  obtain ⟨x, hx⟩ : ∃ x, x = A / H := ⟨_, rfl⟩
  have hA' : A = x * H := by rw [hx]; field_simp
  have hx0 : 0 < x := by rw [hx]; exact div_pos (by linarith) hH
  rw [← hx]
  rw [hA'] at hN
  obtain ⟨e1, e2⟩ := abs_le.1 he'
  obtain ⟨n1, n2⟩ := abs_le.1 hN
  have hxH : 0 < x * H := by positivity
  have r1 : N / h ≤ x * (1 + 1 / 2 ^ 33) := by
    rw [div_le_iff₀ hh0]
    have : x * (1 + 1 / 2 ^ 33) * (H * (1 - 1 / 2 ^ 34)) ≤ x * (1 + 1 / 2 ^ 33) * h :=
      mul_le_mul_of_nonneg_left (by linarith) (by positivity)
    refine le_trans ?_ this
    norm_num at n2 ⊢
    linarith
  have r2 : x * (1 - 1 / 2 ^ 33) ≤ N / h := by
    rw [le_div_iff₀ hh0]
    have : x * (1 - 1 / 2 ^ 33) * h ≤ x * (1 - 1 / 2 ^ 33) * (H * (1 + 1 / 2 ^ 34)) :=
      mul_le_mul_of_nonneg_left (by linarith) (mul_nonneg hx0.le (by norm_num))
    refine le_trans this ?_
    norm_num at n1 ⊢
    linarith
  obtain ⟨s1, s2⟩ := abs_le.1 hr
  rw [abs_le]
  generalize N / h = r at *
  norm_num at s1 s2 r1 r2 ⊢
  constructor <;> linarith

/-- Chebyshev's inequality. -/
theorem chebyshev {n : Nat} (f : (Fin n → Fin (2 ^ 64)) → ℝ) (μ : ℝ) {t : ℝ} (ht : 0 < t) :
    fraction (fun h => t ≤ |f h - μ|) ≤ mean (fun h => (f h - μ) ^ 2) / t ^ 2 := by
  classical
  unfold fraction mean
  have hc := card_pos_real n
  rw [le_div_iff₀ (by positivity), div_mul_eq_mul_div, div_le_div_iff_of_pos_right hc]
  set B := Finset.univ.filter fun h : Fin n → Fin (2 ^ 64) => t ≤ |f h - μ| with hB
  have hB' : (Finset.univ.filter fun h : Fin n → Fin (2 ^ 64) => t ≤ |f h - μ|) = B := hB
  calc _ = (B.card : ℝ) * t ^ 2 := by congr!
    _ = ∑ _h ∈ B, t ^ 2 := by rw [Finset.sum_const, nsmul_eq_mul]
    _ ≤ ∑ h ∈ B, (f h - μ) ^ 2 := by
        refine Finset.sum_le_sum fun h hh => ?_
        rw [hB, Finset.mem_filter] at hh
        rw [← sq_abs (f h - μ)]
        exact pow_le_pow_left₀ ht.le hh.2 2
    _ ≤ _ := Finset.sum_le_sum_of_subset_of_nonneg (Finset.subset_univ _)
        fun _ _ _ => sq_nonneg _

theorem moment_half_pos {w p n : Nat} : 0 < moment w p n (1 / 2) := by
  unfold moment
  have : ∀ k, (0 : ℝ) ≤ ((1 / 2) ^ k - (1 / 2) ^ (k + 1)) * (1 - 1 / 2 ^ (p + k)) ^ n := fun k => by
    rw [half_pow_sub]
    have := arg_le (p := p) k
    have : (0 : ℝ) ≤ 1 - 1 / 2 ^ (p + k) := by linarith
    positivity
  have := Finset.sum_nonneg (s := Finset.range (w - p + 1)) fun k _ => this k
  have h2 : (0 : ℝ) < (1 / 2) ^ (w - p + 1) := by positivity
  linarith

/-- What the raw estimate would be if the harmonic sum had its average value. -/
noncomputable def centre (w p n : Nat) : ℝ := alphaQ p * 2 ^ p / moment w p n (1 / 2)

/-- The relative variance of the harmonic sum times the number of registers. -/
noncomputable def relVar (w p n : Nat) : ℝ := moment w p n (1 / 4) / moment w p n (1 / 2) ^ 2 - 1

/-- The probability that the exact raw estimate is off by a relative error of `δ`. -/
theorem raw_deviation {w p : Nat} (n : Nat) (hp1 : 1 ≤ p) (hp : p ≤ w) (hw : w ≤ 64) {δ : ℝ} (hδ : 0 < δ) :
    fraction (fun h : Fin n → Fin (2 ^ 64) =>
        δ / (1 + δ) * (2 ^ p * moment w p n (1 / 2)) ≤ |harm w p h - 2 ^ p * moment w p n (1 / 2)|) ≤
      relVar w p n * (1 + δ) ^ 2 / (2 ^ p * δ ^ 2) := by
  have he := moment_half_pos (w := w) (p := p) (n := n)
  refine (chebyshev _ _ (by positivity)).trans ?_
  rw [div_le_iff₀ (by positivity)]
  refine (variance_harm n hp1 hp hw).trans (le_of_eq ?_)
  unfold relVar
  field_simp

theorem centre_pos {w p n : Nat} (hp1 : 4 ≤ p) (hp2 : p ≤ 18) : 0 < centre w p n := by
  obtain ⟨_, ha1, _⟩ := alpha_facts hp1 hp2
  have : (0 : ℝ) < (alphaQ p : ℝ) := by exact_mod_cast (by linarith : (0 : ℚ) < alphaQ p)
  have := moment_half_pos (w := w) (p := p) (n := n)
  unfold centre
  positivity

/-- The computed raw estimate in the good case. -/
theorem raw_good {w p n : Nat} (hp1 : 4 ≤ p) (hp2 : p ≤ 18) {δ : ℝ} (hδ : 0 < δ)
    {h : Fin n → Fin (2 ^ 64)} (hw : w - p < 63)
    (hgood : |harm w p h - 2 ^ p * moment w p n (1 / 2)| < δ / (1 + δ) * (2 ^ p * moment w p n (1 / 2))) :
    |(rawQ p (hsum 0 (regs w p (hashSet w h))) : ℝ) - centre w p n| ≤
      (δ + (1 + δ) / 2 ^ 32) * centre w p n := by
  have hM : Regs p (regs w p (hashSet w h)) := regs_regs _ hw
  obtain ⟨hH, hr⟩ := raw_rel hp1 hp2 hM
  have hc := centre_pos (w := w) (n := n) hp1 hp2
  have he := moment_half_pos (w := w) (p := p) (n := n)
  have hH' : 0 < harm w p h := by rw [← harm_eq]; exact_mod_cast hH
  have hr' := (Rat.cast_le (K := ℝ)).2 hr
  push_cast at hr'
  rw [harm_eq] at hr'
  have hm : (0 : ℝ) < 2 ^ p := by positivity
  have hE : (alphaQ p : ℝ) * (2 ^ p * 2 ^ p) / harm w p h =
      centre w p n * (2 ^ p * moment w p n (1 / 2) / harm w p h) := by
    unfold centre; field_simp
  rw [hE] at hr'
  generalize (rawQ p (hsum 0 (regs w p (hashSet w h))) : ℝ) = Y at *
  generalize harm w p h = Z at *
  generalize centre w p n = c at *
  have hμ : 0 < 2 ^ p * moment w p n (1 / 2) := by positivity
  generalize 2 ^ p * moment w p n (1 / 2) = μ at *
  obtain ⟨g1, g2⟩ := abs_lt.1 hgood
  have hd : (0 : ℝ) < 1 + δ := by linarith
  have k1 : μ / Z ≤ 1 + δ := by
    rw [div_le_iff₀ hH']
    have : μ * (1 - δ / (1 + δ)) < Z := by linarith
    have e : μ * (1 - δ / (1 + δ)) = μ / (1 + δ) := by field_simp; ring
    rw [e, div_lt_iff₀ hd] at this
    linarith
  have k2 : 1 - δ ≤ μ / Z := by
    rcases le_or_gt 1 δ with h1 | h1
    · have : 0 ≤ μ / Z := by positivity
      linarith
    rw [le_div_iff₀ hH']
    have h2 : Z ≤ μ * (1 + δ / (1 + δ)) := by linarith
    have e : μ * (1 + δ / (1 + δ)) = μ * (1 + 2 * δ) / (1 + δ) := by field_simp; ring
    rw [e] at h2
    refine (mul_le_mul_of_nonneg_left h2 (by linarith)).trans ?_
    rw [← mul_div_assoc, div_le_iff₀ hd]
    nlinarith [mul_pos hμ (mul_pos hδ hδ)]
  generalize μ / Z = y at *
  obtain ⟨s1, s2⟩ := abs_le.1 hr'
  have t1 : c * y ≤ c * (1 + δ) := mul_le_mul_of_nonneg_left k1 hc.le
  have t2 : c * (1 - δ) ≤ c * y := mul_le_mul_of_nonneg_left k2 hc.le
  norm_num at s1 s2 ⊢
  rw [abs_le]
  constructor <;> linarith

/-! ## Numerical values -/

open Osc in
/-- Bounds on `centre` and `relVar` from bounds on the oscillating sums. -/
theorem centre_bounds {w p n : Nat} (hp1 : 4 ≤ p) (hp2 : p ≤ 18) (hn : 5 ≤ n) {a b c : ℝ} (ha : 0 < a)
    (h1 : a ≤ G (w - p + 1) (n / 2 ^ p)) (h2 : G (w - p + 1) (n / 2 ^ p) ≤ b)
    (h3 : Q (w - p + 1) (n / 2 ^ p) ≤ c) :
    2 * alphaQ p * n / b ≤ centre w p n ∧
    centre w p n ≤ 2 * alphaQ p * n / (a * (1 - 4.34 / n)) ∧
    relVar w p n ≤ 3 * c / (a * (1 - 4.34 / n)) ^ 2 - 1 := by
  obtain ⟨_, ha1, _⟩ := alpha_facts hp1 hp2
  have hα : (0 : ℝ) < (alphaQ p : ℝ) := by exact_mod_cast (by linarith : (0 : ℚ) < alphaQ p)
  have he := moment_half_pos (w := w) (p := p) (n := n)
  have hn5 : (5 : ℝ) ≤ n := by exact_mod_cast hn
  have hn0 : (0 : ℝ) < n := by linarith
  have hm : (0 : ℝ) < 2 ^ p := by positivity
  have m1 := moment_half_le (w := w) (p := p) (n := n) (by omega)
  have m2 := moment_half_ge (w := w) (p := p) (n := n) (by omega)
  have m3 := moment_quarter_le (w := w) (p := p) (n := n) (by omega)
  have hc : 0 < 1 - 4.34 / (n : ℝ) := by
    have : 4.34 / (n : ℝ) ≤ 4.34 / 5 := by gcongr
    norm_num at this ⊢; linarith
  have m2' : a * (1 - 4.34 / n) / (2 * (n / 2 ^ p)) ≤ moment w p n (1 / 2) := by
    refine le_trans ?_ m2
    gcongr
    calc a * (1 - 4.34 / (n : ℝ)) ≤ G (w - p + 1) (n / 2 ^ p) * (1 - 4.34 / n) := by gcongr
      _ = _ := by ring
  have m1' : moment w p n (1 / 2) ≤ b / (2 * (n / 2 ^ p)) := by
    refine le_trans m1 ?_
    gcongr
  have m3' : moment w p n (1 / 4) ≤ 3 / 4 * c / (n / 2 ^ p) ^ 2 := by
    refine le_trans m3 ?_
    gcongr
  have hb : 0 < b := by linarith
  have he4 : (0 : ℝ) ≤ moment w p n (1 / 4) := by
    unfold moment
    have := Finset.sum_nonneg (s := Finset.range (w - p + 1)) (f := fun k =>
        ((1 / 4 : ℝ) ^ k - (1 / 4) ^ (k + 1)) * (1 - 1 / 2 ^ (p + k)) ^ n) fun k _ => by
      rw [quarter_pow_sub]
      have := arg_le (p := p) k
      have : (0 : ℝ) ≤ 1 - 1 / 2 ^ (p + k) := by linarith
      positivity
    positivity
  unfold centre relVar
  generalize moment w p n (1 / 2) = e at *
  generalize moment w p n (1 / 4) = e4 at *
  generalize 1 - 4.34 / (n : ℝ) = y at *
  refine ⟨?_, ?_, ?_⟩
  · rw [div_le_div_iff₀ hb he]
    rw [le_div_iff₀ (by positivity)] at m1'
    have : e * (2 * (n / 2 ^ p)) * 2 ^ p = 2 * n * e := by field_simp
    have h4 := mul_le_mul_of_nonneg_right m1' hm.le
    rw [this] at h4
    calc 2 * (alphaQ p : ℝ) * n * e = alphaQ p * (2 * n * e) := by ring
      _ ≤ alphaQ p * (b * 2 ^ p) := by gcongr
      _ = _ := by ring
  · rw [div_le_div_iff₀ he (by positivity)]
    rw [div_le_iff₀ (by positivity)] at m2'
    have : e * (2 * (n / 2 ^ p)) * 2 ^ p = 2 * n * e := by field_simp
    have h4 := mul_le_mul_of_nonneg_right m2' hm.le
    rw [this] at h4
    calc (alphaQ p : ℝ) * 2 ^ p * (a * y) = alphaQ p * (a * y * 2 ^ p) := by ring
      _ ≤ alphaQ p * (2 * n * e) := by gcongr
      _ = _ := by ring
  · have hl : (0 : ℝ) < n / 2 ^ p := by positivity
    generalize (n : ℝ) / 2 ^ p = l at *
    have hc0 : 0 ≤ c := by
      by_contra hneg
      have h0 : 0 ≤ Q (w - p + 1) l := by
        unfold Q
        have := Finset.sum_nonneg (s := Finset.range (w - p + 1)) fun i _ => q_nonneg (l / 2 ^ i)
        positivity
      linarith
    have h5 : (a * y) ^ 2 / (2 * l) ^ 2 ≤ e ^ 2 := by
      rw [← div_pow]; exact pow_le_pow_left₀ (by positivity) m2' 2
    have : e4 / e ^ 2 ≤ 3 * c / (a * y) ^ 2 := by
      rw [div_le_div_iff₀ (by positivity) (by positivity)]
      rw [div_le_iff₀ (by positivity)] at h5
      rw [le_div_iff₀ (by positivity)] at m3'
      calc e4 * (a * y) ^ 2 ≤ e4 * (e ^ 2 * (2 * l) ^ 2) := by
            refine mul_le_mul_of_nonneg_left h5 ?_
            exact he4
        _ = 4 * e ^ 2 * (e4 * l ^ 2) := by ring
        _ ≤ 4 * e ^ 2 * (3 / 4 * c) := by gcongr
        _ = 3 * c * e ^ 2 := by ring
    linarith

theorem alpha_near {p : Nat} (hp1 : 4 ≤ p) (hp2 : p ≤ 18) :
    7213 / 10000 * (1 - 1.1 / 2 ^ p) ≤ (alphaQ p : ℝ) ∧
      (alphaQ p : ℝ) ≤ 7213 / 10000 * (1 - 1.06 / 2 ^ p) := by
  have h : ∀ q : Fin 15, 7213 / 10000 * (1 - 11 / 10 / 2 ^ (4 + q : ℕ)) ≤ alphaQ (4 + q) ∧
      alphaQ (4 + q) ≤ 7213 / 10000 * (1 - 106 / 100 / 2 ^ (4 + q : ℕ)) := by decide +kernel
  have h := h ⟨p - 4, by omega⟩
  simp only at h
  rw [show 4 + (p - 4) = p by omega] at h
  have h1 := (Rat.cast_le (K := ℝ)).2 h.1
  have h2 := (Rat.cast_le (K := ℝ)).2 h.2
  push_cast at h1 h2
  norm_num at h1 h2 ⊢
  exact ⟨h1, h2⟩

open Osc Real in
theorem g_ten {u : ℝ} (hu : 10 ≤ u) : g u ≤ 0.000455 := by
  refine (g_dec (by norm_num) hu).trans ?_
  have e : exp (-10) = 1 / exp 1 ^ 10 := by
    rw [← exp_nat_mul, exp_neg, one_div]; norm_num
  have h := exp_one_gt_d9
  rw [g, e, mul_one_div, div_le_iff₀ (by positivity)]
  have : (2.7182818283 : ℝ) ^ 10 ≤ exp 1 ^ 10 := pow_le_pow_left₀ (by norm_num) h.le 10
  norm_num at this ⊢
  linarith

/-- The raw estimate is centred at `n`, for `n` from `5m` up to a 60th of the number of hashes. -/
theorem centre_near {w p n : Nat} (hp1 : 4 ≤ p) (hp2 : p ≤ 18) (hpw : p ≤ w) (h5 : 5 * 2 ^ p ≤ n)
    (hn : 60 * n ≤ 2 ^ (w + 1)) :
    (1 - 0.00065 - 1.1 / 2 ^ p) * n ≤ centre w p n ∧ centre w p n ≤ 1.0006 * n ∧
      relVar w p n ≤ 1.09 + 4 / 2 ^ p := by
  have hm : (16 : ℝ) ≤ 2 ^ p := by
    calc (16 : ℝ) = 2 ^ 4 := by norm_num
      _ ≤ 2 ^ p := pow_le_pow_right₀ (by norm_num) hp1
  have hm0 : (0 : ℝ) < 2 ^ p := by linarith
  have h5' : 5 * (2 : ℝ) ^ p ≤ n := by exact_mod_cast h5
  have hn' : 60 * (n : ℝ) ≤ 2 ^ (w + 1) := by exact_mod_cast hn
  have hn0 : (0 : ℝ) < n := by linarith
  have hn5 : 5 ≤ n := by
    have : 1 ≤ 2 ^ p := Nat.one_le_two_pow
    omega
  have hu : (n : ℝ) / 2 ^ p / 2 ^ (w - p + 1) = n / 2 ^ (w + 1) := by
    rw [div_div, ← pow_add]; congr 2; omega
  have hx : (n : ℝ) / 2 ^ (w + 1) ≤ 1 / 60 := by
    rw [div_le_div_iff₀ (by positivity) (by norm_num)]; linarith
  have hx0 : 0 ≤ (n : ℝ) / 2 ^ (w + 1) := by positivity
  have hl : 5 ≤ (n : ℝ) / 2 ^ p := by rw [le_div_iff₀ hm0]; exact h5'
  obtain ⟨b1, b2, b3⟩ := Osc.G_bounds (L := w - p + 1) (u := n / 2 ^ p) (by linarith) (by
    have h1 : (n : ℝ) / 2 ^ p / 2 ^ (w - p + 1) ≤ 1 := by rw [hu]; linarith
    rwa [div_le_one (by positivity)] at h1)
  rw [hu] at b2 b3
  have hg := g_ten (u := 2 * (n / 2 ^ p)) (by linarith)
  have hx2 : ((n : ℝ) / 2 ^ (w + 1)) ^ 2 ≤ (1 / 60) ^ 2 := pow_le_pow_left₀ hx0 hx 2
  have hx3 : ((n : ℝ) / 2 ^ (w + 1)) ^ 3 ≤ (1 / 60) ^ 3 := pow_le_pow_left₀ hx0 hx 3
  obtain ⟨c1, c2, c3⟩ := centre_bounds (w := w) hp1 hp2 hn5 (a := 1.4418) (b := 1.4435) (c := 1.44341)
    (by norm_num) (by norm_num at b1 hg ⊢; linarith) (by norm_num at b2 hx2 ⊢; linarith)
    (by norm_num at b3 hx3 ⊢; linarith)
  obtain ⟨a1, a2⟩ := alpha_near hp1 hp2
  have hy : 1 - 0.868 / 2 ^ p ≤ 1 - 4.34 / (n : ℝ) := by
    have : 4.34 / (n : ℝ) ≤ 0.868 / 2 ^ p := by
      rw [div_le_div_iff₀ hn0 hm0]; norm_num; linarith
    linarith
  have hy0 : 0 < 1 - 0.868 / (2 : ℝ) ^ p := by
    have : 0.868 / (2 : ℝ) ^ p ≤ 0.868 / 16 := by gcongr
    norm_num at this ⊢; linarith
  refine ⟨le_trans ?_ c1, c2.trans ?_, c3.trans ?_⟩
  · rw [le_div_iff₀ (by norm_num)]
    have h1 : 1.4426 * (1 - 1.1 / 2 ^ p) ≤ 2 * (alphaQ p : ℝ) := by
      norm_num at a1 ⊢; linarith
    have h2 : (1 - 0.00065 - 1.1 / (2 : ℝ) ^ p) * 1.4435 ≤ 1.4426 * (1 - 1.1 / 2 ^ p) := by
      have : 0 ≤ 1.1 / (2 : ℝ) ^ p := by positivity
      norm_num at this ⊢; linarith
    calc _ = (1 - 0.00065 - 1.1 / (2 : ℝ) ^ p) * 1.4435 * n := by ring
      _ ≤ 2 * alphaQ p * n := by
        refine mul_le_mul_of_nonneg_right (h2.trans h1) hn0.le
  · rw [div_le_iff₀ (by have : 0 < 1 - 4.34 / (n : ℝ) := by linarith
                        positivity)]
    have h1 : 2 * (alphaQ p : ℝ) ≤ 1.4426 * (1 - 1.06 / 2 ^ p) := by norm_num at a2 ⊢; linarith
    have h2 : 1.4426 * (1 - 1.06 / (2 : ℝ) ^ p) ≤ 1.0006 * (1.4418 * (1 - 0.868 / 2 ^ p)) := by
      have : 0 ≤ 1 / (2 : ℝ) ^ p := by positivity
      have e1 : 1.06 / (2 : ℝ) ^ p = 1.06 * (1 / 2 ^ p) := by ring
      have e2 : 0.868 / (2 : ℝ) ^ p = 0.868 * (1 / 2 ^ p) := by ring
      rw [e1, e2]
      generalize 1 / (2 : ℝ) ^ p = z at *
      norm_num; linarith
    calc 2 * (alphaQ p : ℝ) * n ≤ 1.0006 * (1.4418 * (1 - 0.868 / 2 ^ p)) * n :=
          mul_le_mul_of_nonneg_right (h1.trans h2) hn0.le
      _ ≤ 1.0006 * (1.4418 * (1 - 4.34 / (n : ℝ))) * n := by gcongr
      _ = _ := by ring
  · have h1 : 3 * 1.44341 / (1.4418 * (1 - 4.34 / (n : ℝ))) ^ 2 ≤
        3 * 1.44341 / (1.4418 * (1 - 0.868 / 2 ^ p)) ^ 2 := by gcongr
    have h2 : 3 * 1.44341 / (1.4418 * (1 - 0.868 / (2 : ℝ) ^ p)) ^ 2 ≤ 2.09 + 4 / 2 ^ p := by
      rw [div_le_iff₀ (by positivity)]
      have e1 : 4 / (2 : ℝ) ^ p = 4 * (1 / 2 ^ p) := by ring
      have e2 : 0.868 / (2 : ℝ) ^ p = 0.868 * (1 / 2 ^ p) := by ring
      have hz : 1 / (2 : ℝ) ^ p ≤ 1 / 16 := by gcongr
      have hz0 : 0 ≤ 1 / (2 : ℝ) ^ p := by positivity
      rw [e1, e2]
      generalize 1 / (2 : ℝ) ^ p = z at *
      norm_num
      nlinarith [mul_nonneg hz0 hz0, mul_nonneg hz0 (mul_nonneg hz0 hz0), mul_nonneg hz0 (sub_nonneg.2 hz)]
    norm_num at h1 h2 ⊢
    linarith

/-! ## The estimators when the raw estimate is large -/

theorem used_le_codes {p : Nat} (hp1 : 4 ≤ p) (hp2 : p ≤ 18) {S : Finset Nat}
    (hS : ∀ h ∈ S, h < 2 ^ 64) : 2 ^ p ≤ zeros 64 p S + (codes p S).card := by
  classical
  have h1 : zeros 64 p S + ((Finset.range (2 ^ p)).filter fun j => ¬ reg 64 p S j = 0).card = 2 ^ p := by
    have := Finset.card_filter_add_card_filter_not (s := Finset.range (2 ^ p))
      (fun j => reg 64 p S j = 0)
    rw [Finset.card_range] at this
    exact this
  have h2 : ((Finset.range (2 ^ p)).filter fun j => ¬ reg 64 p S j = 0).card ≤
      (codes p S).card := by
    have hj : ∀ j ∈ (Finset.range (2 ^ p)).filter fun j => ¬ reg 64 p S j = 0,
        ∃ h ∈ S, bucket 64 p h = j := by
      intro j hj
      rw [Finset.mem_filter] at hj
      by_contra hne
      apply hj.2
      unfold reg
      rw [Finset.filter_eq_empty_iff.2 fun h hh hb => hne ⟨h, hh, hb⟩, Finset.sup_empty]; rfl
    choose! f hf1 hf2 using hj
    refine Finset.card_le_card_of_injOn (fun j => code p (f j))
      (fun j hj => Finset.mem_image_of_mem _ (hf1 j hj)) ?_
    intro i hi j hj hij
    have := (bucket_rank_of_code hp1 hp2 (hS _ (hf1 i hi)) (hS _ (hf1 j hj)) hij).1
    rw [hf2 i hi, hf2 j hj] at this
    exact this
  omega

/-- A large raw estimate leaves few registers empty. -/
theorem zeros_of_raw {w p : Nat} (hp1 : 4 ≤ p) (hp2 : p ≤ 18) (hw : w - p < 63) {S : Finset Nat}
    {c : ℚ} (hc : 0 < c) (h : c * 2 ^ p < rawQ p (hsum 0 (regs w p S))) :
    c * zeros w p S ≤ 0.7301 * 2 ^ p := by
  have hM : Regs p (regs w p S) := regs_regs _ hw
  obtain ⟨hH, hr⟩ := raw_rel hp1 hp2 hM
  obtain ⟨_, ha1, ha2⟩ := alpha_facts hp1 hp2
  have hz := hexact_ge_zeros (regs w p S)
  rw [count_zero_regs] at hz
  have hm : (0 : ℚ) < 2 ^ p := by positivity
  obtain ⟨r1, r2⟩ := abs_le.1 hr
  have h2 : c * 2 ^ p ≤ alphaQ p * (2 ^ p * 2 ^ p) / hexact (regs w p S) * (1 + 1 / 2 ^ 32) := by
    linarith
  rw [div_mul_eq_mul_div, le_div_iff₀ hH] at h2
  have h3 : c * hexact (regs w p S) ≤ alphaQ p * 2 ^ p * (1 + 1 / 2 ^ 32) := by
    have : 2 ^ p * (c * hexact (regs w p S)) ≤ 2 ^ p * (alphaQ p * 2 ^ p * (1 + 1 / 2 ^ 32)) := by
      linarith
    exact le_of_mul_le_mul_left this hm
  calc c * (zeros w p S : ℚ) ≤ c * hexact (regs w p S) := by gcongr
    _ ≤ _ := h3
    _ ≤ 73 / 100 * 2 ^ p * (1 + 1 / 2 ^ 32) := by gcongr
    _ ≤ _ := by norm_num; linarith

theorem threshold_le_mul {p : Nat} (hp1 : 4 ≤ p) (hp2 : p ≤ 18) :
    (threshold p : ℝ) ≤ 1.336 * 2 ^ p := by
  interval_cases p <;> norm_num [threshold]

theorem log_four : 1.386 ≤ Real.log 4 := by
  have h : Real.log 4 = 2 * Real.log 2 := by
    rw [show (4 : ℝ) = 2 ^ 2 by norm_num, Real.log_pow]; norm_num
  have := Real.log_two_gt_d9
  rw [h]; norm_num at this ⊢; linarith

/-- A raw estimate above `5m` is returned as it is. -/
theorem plusCount_raw {ln : F64 → F64} (hln : LnSpec ln) (v : Search) {p : Nat} (hp1 : 4 ≤ p)
    (hp2 : p ≤ 18) {S : Finset Nat} (hS : ∀ h ∈ S, h < 2 ^ 64)
    (h5 : 5 * 2 ^ p < rawQ p (hsum 0 (regs 64 p S))) :
    plusCount ln (Plus.biasOf v) p S = fin (rawQ p (hsum 0 (regs 64 p S))) := by
  have hz := zeros_of_raw hp1 hp2 (by omega) (by norm_num) h5
  have hm : (16 : ℚ) ≤ 2 ^ p := by
    calc (16 : ℚ) = 2 ^ 4 := by norm_num
      _ ≤ 2 ^ p := pow_le_pow_right₀ (by norm_num) hp1
  have hz4 : 4 * zeros 64 p S ≤ 2 ^ p := by
    have : (4 : ℚ) * zeros 64 p S ≤ 2 ^ p := by norm_num at hz; linarith
    exact_mod_cast this
  rcases plusRegime_cases v ln hp1 hp2 S with ⟨_, a2, _⟩ | ⟨_, _, a3, a4, _⟩ | ⟨_, _, ⟨_, a4, _⟩ | ⟨_, _, a5⟩⟩
  · exfalso
    have h1 := used_le_codes hp1 hp2 hS
    have h2 := card_le_encSize (codes p S)
    unfold fitsSparse capacity at a2
    have h3 : 5 * (codes p S).card ≤ 4 * 2 ^ p := by omega
    have h4 : (2 : ℚ) ^ p ≤ zeros 64 p S + (codes p S).card := by exact_mod_cast h1
    have h5 : 5 * ((codes p S).card : ℚ) ≤ 4 * 2 ^ p := by exact_mod_cast h3
    norm_num at hz
    linarith
  · exfalso
    rw [count_zero_regs] at a3 a4
    have h18 : 2 ^ p ≤ 2 ^ 18 := Nat.pow_le_pow_right (by norm_num) hp2
    obtain ⟨y, h1, _, h2⟩ := linear_approx hln (m := 2 ^ p) (V := zeros 64 p S) (by omega)
      (by omega) (by omega)
    rw [h1, num, le_fin] at a4
    have a4' : (y : ℝ) ≤ threshold p := by exact_mod_cast a4
    have ht := threshold_le_mul hp1 hp2
    have hz0 : (0 : ℝ) < zeros 64 p S := by exact_mod_cast Nat.pos_of_ne_zero a3
    have hl : Real.log 4 ≤ Real.log (((2 ^ p : ℕ) : ℝ) / zeros 64 p S) := by
      apply Real.log_le_log (by norm_num)
      rw [le_div_iff₀ hz0]
      exact_mod_cast hz4
    have hl4 := log_four
    push_cast at h2 hl
    have hm' : (16 : ℝ) ≤ 2 ^ p := by exact_mod_cast hm
    have h18' : (2 : ℝ) ^ p ≤ 2 ^ 18 := by exact_mod_cast h18
    have h3 : (2 : ℝ) ^ p * 1.386 ≤ 2 ^ p * Real.log (2 ^ p / zeros 64 p S) := by
      gcongr; linarith
    have h4 := (abs_le.1 h2).1
    generalize (2 : ℝ) ^ p * Real.log (2 ^ p / zeros 64 p S) = L at *
    norm_num at h3 h4 ht
    linarith
  · exact absurd h5 (not_lt.2 a4)
  · exact a5

/-- A raw estimate between `5/2 m` and `2^32/30` is returned as it is. -/
theorem pfCount_raw {ln : F64 → F64} {p : Nat} (hp1 : 4 ≤ p) (hp2 : p ≤ 16) {S : Finset Nat}
    (h1 : 5 / 2 * 2 ^ p < rawQ p (hsum 0 (regs 32 p S)))
    (h2 : rawQ p (hsum 0 (regs 32 p S)) ≤ 2 ^ 32 / 30) :
    pfCount ln p S = fin (rawQ p (hsum 0 (regs 32 p S))) := by
  rcases pfRegime_cases ln hp1 hp2 S with ⟨_, a, _⟩ | ⟨_, ⟨_, _, a⟩ | ⟨_, a, _⟩⟩
  · exact absurd a (not_le.2 h1)
  · exact a
  · exfalso
    have ht : ∃ t : ℚ, div (num (2 ^ 32)) (num 30) = fin t ∧ rnd (2 ^ 32 / 30 : ℚ) = t := by
      refine ⟨rnd (2 ^ 32 / 30 : ℚ), ?_, rfl⟩
      decide +kernel
    obtain ⟨t, ht, ht'⟩ := ht
    rw [ht, gt_fin, ← ht'] at a
    have h3 : rnd (rawQ p (hsum 0 (regs 32 p S))) = rawQ p (hsum 0 (regs 32 p S)) := rnd_rnd _
    have h4 : rnd (rawQ p (hsum 0 (regs 32 p S))) ≤ rnd (2 ^ 32 / 30 : ℚ) := rnd_mono h2
    rw [h3] at h4
    exact absurd a (not_lt.2 h4)

end HLL
