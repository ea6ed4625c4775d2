import Verif.Proofs.StdError
import Verif.Props.Tails

/-!
# The mean square of the estimate, sharply

For more than `24 m` values the raw estimate is used unless the harmonic sum is more than four times
its mean.  The square of `1/Z - 1` is compared with `(e^{6(1-Z)} - 1 - 6(1-Z))/18`, which agrees with it
up to fourth order at `Z = 1`, and whose mean is bounded by the moment generating function.
-/

namespace HLL
open Spec F64 Finset

variable {ln : F64 → F64} {p n w : Nat}

/-! ## Exponential bounds -/

/-- Partial sums of the series of `e^{-y}`. -/
noncomputable def altSum (k : Nat) (y : ℝ) : ℝ := ∑ i ∈ range (k + 1), (-y) ^ i / i.factorial

theorem altSum_deriv (k : Nat) (y : ℝ) : HasDerivAt (altSum (k + 1)) (-altSum k y) y := by
  have h : ∀ i ∈ range (k + 1 + 1), HasDerivAt (fun y : ℝ => (-y) ^ i / i.factorial)
      (i * (-y) ^ (i - 1) * -1 / i.factorial) y := by
    intro i _
    exact (((hasDerivAt_id y).neg).pow i).div_const _
  have h2 := HasDerivAt.fun_sum h
  refine h2.congr_deriv ?_
  rw [sum_range_succ', altSum, ← sum_neg_distrib]
  simp only [Nat.cast_zero, zero_mul, zero_div, add_zero]
  refine sum_congr rfl fun i _ => ?_
  rw [Nat.add_sub_cancel, Nat.factorial_succ]
  have : (i.factorial : ℝ) ≠ 0 := by exact_mod_cast i.factorial_ne_zero
  have : ((i : ℝ) + 1) ≠ 0 := by positivity
  push_cast
  field_simp

/-- The partial sums lie alternately above and below. -/
theorem altSum_alt (k : Nat) {y : ℝ} (hy : 0 ≤ y) :
    0 ≤ (-1) ^ (k + 1) * (Real.exp (-y) - altSum k y) := by
  induction k generalizing y with
  | zero =>
    have := Real.exp_le_one_iff.2 (neg_nonpos.2 hy)
    simp [altSum]; linarith
  | succ k ih =>
    have hd : ∀ t : ℝ, HasDerivAt (fun t => (-1 : ℝ) ^ (k + 1 + 1) * (Real.exp (-t) - altSum (k + 1) t))
        ((-1) ^ (k + 1) * (Real.exp (-t) - altSum k t)) t := by
      intro t
      have := (((hasDerivAt_id t).neg.exp).sub (altSum_deriv k t)).const_mul ((-1 : ℝ) ^ (k + 1 + 1))
      refine this.congr_deriv ?_
      simp only [Pi.neg_apply, id, pow_succ]; ring
    have hm : MonotoneOn (fun t => (-1 : ℝ) ^ (k + 1 + 1) * (Real.exp (-t) - altSum (k + 1) t))
        (Set.Ici 0) := by
      refine monotoneOn_of_deriv_nonneg (convex_Ici 0)
        (fun t _ => (hd t).continuousAt.continuousWithinAt)
        (fun t _ => (hd t).differentiableAt.differentiableWithinAt) fun t ht => ?_
      rw [(hd t).deriv]
      rw [interior_Ici] at ht
      exact ih (le_of_lt ht)
    have h0 := hm (Set.mem_Ici.2 le_rfl) (Set.mem_Ici.2 hy) hy
    have e : altSum (k + 1) 0 = 1 := by
      rw [altSum, sum_range_succ']
      simp
    simp only [e, neg_zero, Real.exp_zero, sub_self, mul_zero] at h0
    exact h0

theorem exp_neg_seven {y : ℝ} (hy : 0 ≤ y) :
    1 - y + y ^ 2 / 2 - y ^ 3 / 6 + y ^ 4 / 24 - y ^ 5 / 120 + y ^ 6 / 720 - y ^ 7 / 5040 ≤
      Real.exp (-y) := by
  have h := altSum_alt 7 hy
  simp only [altSum, sum_range_succ, sum_range_zero, Nat.factorial] at h
  norm_num at h
  ring_nf at h ⊢
  linarith

theorem exp_six {y : ℝ} (hy : 0 ≤ y) :
    1 + y + y ^ 2 / 2 + y ^ 3 / 6 + y ^ 4 / 24 + y ^ 5 / 120 + y ^ 6 / 720 ≤ Real.exp y := by
  have h := Real.sum_le_exp_of_nonneg hy 7
  simp only [sum_range_succ, sum_range_zero, Nat.factorial] at h
  norm_num at h
  linarith

/-- The function that dominates `(1/z - 1)^2`. -/
noncomputable def dom (x : ℝ) : ℝ := (Real.exp (6 * x) - 1 - 6 * x) / 18

theorem dom_nonneg (x : ℝ) : 0 ≤ dom x := by
  have := Real.add_one_le_exp (6 * x)
  unfold dom
  linarith

theorem exp_neg_three : (0.0497 : ℝ) ≤ Real.exp (-3) := by
  have h := Real.exp_one_lt_d9
  have h3 : Real.exp 3 = Real.exp 1 ^ 3 := by rw [← Real.exp_nat_mul]; norm_num
  have h4 : Real.exp 1 ^ 3 ≤ 2.7183 ^ 3 := by
    refine pow_le_pow_left₀ (Real.exp_pos _).le ?_ 3
    norm_num at h ⊢; linarith
  rw [Real.exp_neg, h3]
  calc (0.0497 : ℝ) ≤ (2.7183 ^ 3)⁻¹ := by norm_num
    _ ≤ _ := inv_anti₀ (by positivity) h4

theorem dom_pos {x : ℝ} (h0 : 0 ≤ x) (h1 : x ≤ 0.2) : x ^ 2 ≤ 1.006 * dom x * (1 - x) ^ 2 := by
  have h := exp_six (y := 6 * x) (by linarith)
  have h2 : x ^ 2 * (1 + 2 * x + 3 * x ^ 2 + 3.6 * x ^ 3 + 3.6 * x ^ 4) ≤ dom x := by
    unfold dom
    rw [le_div_iff₀ (by norm_num)]
    norm_num at h ⊢
    ring_nf at h ⊢
    linarith
  have h3 : x ^ 2 * (1 + 2 * x + 3 * x ^ 2 + 3.6 * x ^ 3 + 3.6 * x ^ 4) * (1 - x) ^ 2 ≤
      dom x * (1 - x) ^ 2 := by gcongr
  have e : x ^ 2 * (1 + 2 * x + 3 * x ^ 2 + 3.6 * x ^ 3 + 3.6 * x ^ 4) * (1 - x) ^ 2 =
      x ^ 2 * (1 - (0.4 * x ^ 3 + 0.6 * x ^ 4 + 3.6 * x ^ 5 - 3.6 * x ^ 6)) := by ring
  have p3 : x ^ 3 ≤ 0.2 ^ 3 := by gcongr
  have p4 : x ^ 4 ≤ 0.2 ^ 4 := by gcongr
  have p5 : x ^ 5 ≤ 0.2 ^ 5 := by gcongr
  have p6 : 0 ≤ x ^ 6 := by positivity
  have h4 : x ^ 2 * 0.9946 ≤
      x ^ 2 * (1 - (0.4 * x ^ 3 + 0.6 * x ^ 4 + 3.6 * x ^ 5 - 3.6 * x ^ 6)) := by
    gcongr
    norm_num at *; linarith
  have := sq_nonneg x
  norm_num at *
  linarith

theorem dom_neg_small {u : ℝ} (h0 : 0 ≤ u) (h1 : u ≤ 0.4) : u ^ 2 ≤ 1.006 * dom (-u) * (1 + u) ^ 2 := by
  have h := exp_neg_seven (y := 6 * u) (by linarith)
  have h2 : u ^ 2 * (1 - 2 * u + 3 * u ^ 2 - 3.6 * u ^ 3 + 3.6 * u ^ 4 - 108 / 35 * u ^ 5) ≤ dom (-u) := by
    unfold dom
    rw [le_div_iff₀ (by norm_num), mul_neg]
    norm_num at h ⊢
    ring_nf at h ⊢
    linarith
  have h3 : u ^ 2 * (1 - 2 * u + 3 * u ^ 2 - 3.6 * u ^ 3 + 3.6 * u ^ 4 - 108 / 35 * u ^ 5) * (1 + u) ^ 2 ≤
      dom (-u) * (1 + u) ^ 2 := by gcongr
  have e : u ^ 2 * (1 - 2 * u + 3 * u ^ 2 - 3.6 * u ^ 3 + 3.6 * u ^ 4 - 108 / 35 * u ^ 5) * (1 + u) ^ 2 =
      u ^ 2 * (1 + u ^ 3 * (0.4 - 0.6 * u + 18 / 35 * u ^ 2 - 18 / 7 * u ^ 3 - 108 / 35 * u ^ 4)) := by ring
  have h4 : -0.005 ≤ u ^ 3 * (0.4 - 0.6 * u + 18 / 35 * u ^ 2 - 18 / 7 * u ^ 3 - 108 / 35 * u ^ 4) := by
    have p3 : u ^ 3 ≤ 0.4 ^ 3 := by gcongr
    have q2 : u ^ 3 ≤ 0.4 * u ^ 2 := by nlinarith [sq_nonneg u]
    have q3 : u ^ 4 ≤ 0.16 * u ^ 2 := by nlinarith [sq_nonneg u]
    have q4 : u ^ 2 ≤ 0.16 := by nlinarith
    have p4 : (0.4 - 0.6 * u + 18 / 35 * u ^ 2 - 18 / 7 * u ^ 3 - 108 / 35 * u ^ 4) ≥ -0.05 := by
      norm_num at *
      nlinarith
    have p5 : 0 ≤ u ^ 3 := by positivity
    norm_num at *
    nlinarith
  have h5 : u ^ 2 * (1 + -0.005) ≤
      u ^ 2 * (1 + u ^ 3 * (0.4 - 0.6 * u + 18 / 35 * u ^ 2 - 18 / 7 * u ^ 3 - 108 / 35 * u ^ 4)) := by
    gcongr
  have := sq_nonneg u
  norm_num at *
  linarith

theorem dom_neg_large {u : ℝ} (h0 : 0.4 ≤ u) : u ^ 2 ≤ 1.006 * dom (-u) * (1 + u) ^ 2 := by
  have hu : 0 < u := by norm_num at h0; linarith
  have hsq : 0 < (1 + u) ^ 2 := by positivity
  rcases le_total u 0.5 with h1 | h1
  · have h2 : 0.0497 * (4 - 6 * u) ≤ Real.exp (6 * -u) := by
      have e : Real.exp (6 * -u) = Real.exp (-3) * Real.exp (3 - 6 * u) := by
        rw [← Real.exp_add]; ring_nf
      have h3 := Real.add_one_le_exp (3 - 6 * u)
      rw [e]
      refine mul_le_mul exp_neg_three (by linarith) (by norm_num at *; linarith) (Real.exp_pos _).le
    have h3 : (0.0497 * (4 - 6 * u) - 1 + 6 * u) / 18 ≤ dom (-u) := by
      unfold dom; gcongr; linarith
    have h4 : (0.0497 * (4 - 6 * u) - 1 + 6 * u) / 18 * (1 + u) ^ 2 ≤ dom (-u) * (1 + u) ^ 2 := by gcongr
    have k1 := mul_nonneg (sub_nonneg.2 h0) (sub_nonneg.2 h1)
    have k2 := mul_nonneg k1 hu.le
    norm_num at *
    nlinarith
  · have h3 : (6 * u - 1) / 18 ≤ dom (-u) := by
      have := Real.exp_pos (6 * -u)
      unfold dom
      exact div_le_div_of_nonneg_right (by linarith) (by norm_num)
    have h4 : (6 * u - 1) / 18 * (1 + u) ^ 2 ≤ dom (-u) * (1 + u) ^ 2 := by gcongr
    norm_num at *
    nlinarith [mul_nonneg (sub_nonneg.2 h1) (sq_nonneg u), mul_nonneg (sub_nonneg.2 h1) hu.le]

/-- The domination: for `z ≥ 0.8`. -/
theorem dom_ge {z : ℝ} (hz : 0.8 ≤ z) : (1 / z - 1) ^ 2 ≤ 1.006 * dom (1 - z) := by
  have hz0 : 0 < z := by norm_num at hz; linarith
  have e : (1 / z - 1) ^ 2 = (1 - z) ^ 2 / z ^ 2 := by field_simp
  rw [e, div_le_iff₀ (by positivity)]
  rcases le_total z 1 with h | h
  · have := dom_pos (x := 1 - z) (by linarith) (by norm_num at *; linarith)
    rwa [sub_sub_cancel] at this
  · have hs : (1 - z) ^ 2 = (z - 1) ^ 2 := by ring
    have key : (z - 1) ^ 2 ≤ 1.006 * dom (-(z - 1)) * (1 + (z - 1)) ^ 2 := by
      rcases le_total (z - 1) 0.4 with h' | h'
      · exact dom_neg_small (by linarith) h'
      · exact dom_neg_large h'
    rw [hs]
    rwa [neg_sub, add_sub_cancel] at key

/-- Where the raw estimate is not used. -/
theorem dom_far {z : ℝ} (hz : 4.2 ≤ z) : 1 ≤ 1.006 * dom (1 - z) := by
  have := Real.exp_pos (6 * (1 - z))
  unfold dom
  norm_num at *
  linarith

/-! ## The harmonic sum -/

theorem harm_mono {κ μ : ℝ} (h0 : 0 ≤ κ / μ) : Monotone fun k : Nat => -(κ / μ * ((1 / 2) ^ k - μ)) := by
  intro a b hab
  have : (1 / 2 : ℝ) ^ b ≤ (1 / 2) ^ a := pow_le_pow_of_le_one (by norm_num) (by norm_num) hab
  simp only [neg_le_neg_iff]
  gcongr

theorem harm_sum (κ μ : ℝ) (h : Fin n → Fin (2 ^ 64)) :
    ∑ j ∈ range (2 ^ p), -(κ / μ * ((1 / 2) ^ reg w p (hashSet w h) j - μ)) =
      -(κ / μ * (harm w p h - 2 ^ p * μ)) := by
  rw [sum_neg_distrib, ← mul_sum, sum_sub_distrib, sum_const, card_range, nsmul_eq_mul, harm]
  push_cast
  rfl

/-- The mean of the exponential of the deviation. -/
theorem harm_mgf (hp : p ≤ w) (hw : w ≤ 64) {κ : ℝ} (hκ : 0 ≤ κ) :
    mean (fun h : Fin n → Fin (2 ^ 64) =>
      Real.exp (κ * (1 - harm w p h / (2 ^ p * moment w p n (1 / 2))))) ≤
      Real.exp (κ ^ 2 * (relVar w p n / 2 ^ p) / 2 * Real.exp (κ / 2 ^ p)) := by
  have he := moment_half_pos (w := w) (p := p) (n := n)
  have hm0 : (0 : ℝ) < 2 ^ p := by positivity
  set μ := moment w p n (1 / 2) with hμ
  have key := mgf_sum (w := w) (p := p) (n := n) (ψ := fun k => -(κ / 2 ^ p / μ * ((1 / 2) ^ k - μ)))
    (Or.inl (harm_mono (by positivity)))
    (fun j hj => mgf_lower hp hw hj (κ := κ / 2 ^ p) (by positivity))
  simp only [harm_sum] at key
  have e : ∀ h : Fin n → Fin (2 ^ 64), κ * (1 - harm w p h / (2 ^ p * μ)) =
      -(κ / 2 ^ p / μ * (harm w p h - 2 ^ p * μ)) := fun h => by field_simp; ring
  simp only [e]
  refine key.trans (le_of_eq ?_)
  congr 1
  field_simp

/-- The lower tail. -/
theorem harm_lower (hp : p ≤ w) (hw : w ≤ 64) {κ z g r : ℝ} (hκ : 0 ≤ κ) (hg : Real.exp κ ≤ g)
    (hr : relVar w p n ≤ r) (hr0 : 0 ≤ r) :
    fraction (fun h : Fin n → Fin (2 ^ 64) => harm w p h / (2 ^ p * moment w p n (1 / 2)) ≤ z) ≤
      Real.exp (-((κ * (1 - z) - κ ^ 2 * r / 2 * g) * 2 ^ p)) := by
  have he := moment_half_pos (w := w) (p := p) (n := n)
  have hm0 : (0 : ℝ) < 2 ^ p := by positivity
  set μ := moment w p n (1 / 2) with hμ
  have key := tail_sum (w := w) (p := p) (n := n) (ψ := fun k => -(κ / μ * ((1 / 2) ^ k - μ)))
      (Or.inl (harm_mono (by positivity))) (fun j hj => mgf_lower hp hw hj hκ) (2 ^ p * (κ * (1 - z)))
  refine le_trans (fraction_mono fun h hh => ?_) (key.trans (Real.exp_le_exp.2 ?_))
  · rw [harm_sum]
    rw [div_le_iff₀ (by positivity)] at hh
    have h1 : κ / μ * (harm w p h - 2 ^ p * μ) ≤ κ / μ * (z * (2 ^ p * μ) - 2 ^ p * μ) := by gcongr
    have e2 : κ / μ * (z * (2 ^ p * μ) - 2 ^ p * μ) = -(2 ^ p * (κ * (1 - z))) := by
      field_simp; ring
    linarith
  · have h1 : κ ^ 2 * relVar w p n / 2 * Real.exp κ ≤ κ ^ 2 * r / 2 * g := by
      have : κ ^ 2 * relVar w p n / 2 ≤ κ ^ 2 * r / 2 := by gcongr
      exact mul_le_mul this hg (Real.exp_pos _).le (by positivity)
    have h2 : (2 : ℝ) ^ p * (κ ^ 2 * relVar w p n / 2 * Real.exp κ) ≤ 2 ^ p * (κ ^ 2 * r / 2 * g) := by
      gcongr
    linarith

/-! ## The estimate -/

theorem exp_neg_pow {x : ℝ} {k : Nat} (h : (k : ℝ) ≤ x) : Real.exp (-x) ≤ (0.36788 : ℝ) ^ k := by
  have h1 : Real.exp (-1) ≤ 0.36788 := by
    have := Real.exp_neg_one_lt_d9
    norm_num at this ⊢; linarith
  calc Real.exp (-x) ≤ Real.exp (k * -1) := Real.exp_le_exp.2 (by linarith)
    _ = Real.exp (-1) ^ k := by rw [Real.exp_nat_mul]
    _ ≤ _ := pow_le_pow_left₀ (Real.exp_pos _).le h1 k

theorem sharp_tail (h1 : 10 ≤ p) (h2 : p ≤ 18) : Real.exp (-(0.01569 * 2 ^ p)) ≤ 0.0002 / 2 ^ p := by
  have key : ∀ k : Nat, (k : ℝ) ≤ 0.01569 * 2 ^ p → (0.36788 : ℝ) ^ k ≤ 0.0002 / 2 ^ p →
      Real.exp (-(0.01569 * 2 ^ p)) ≤ 0.0002 / 2 ^ p := fun k a b => (exp_neg_pow a).trans b
  interval_cases p
  · exact key 16 (by norm_num) (by norm_num)
  all_goals exact key 32 (by norm_num) (by norm_num)

theorem sharp_rest (h1 : 10 ≤ p) (h2 : p ≤ 18) (hn : 24 * 2 ^ p < n) :
    (187 * 2 ^ 57) ^ 2 * Real.exp (-(0.0835 * 2 ^ p)) ≤ 0.001 / 2 ^ p * (n : ℝ) ^ 2 := by
  have hn' : 24 * (2 : ℝ) ^ p ≤ n := by exact_mod_cast hn.le
  have hn2 : (24 * (2 : ℝ) ^ p) ^ 2 ≤ (n : ℝ) ^ 2 := pow_le_pow_left₀ (by positivity) hn' 2
  have h0 : 0.001 / 2 ^ p * (24 * (2 : ℝ) ^ p) ^ 2 ≤ 0.001 / 2 ^ p * (n : ℝ) ^ 2 := by gcongr
  refine le_trans ?_ h0
  have key : ∀ k : Nat, (k : ℝ) ≤ 0.0835 * 2 ^ p →
      (187 * 2 ^ 57) ^ 2 * (0.36788 : ℝ) ^ k ≤ 0.001 / 2 ^ p * (24 * (2 : ℝ) ^ p) ^ 2 →
      (187 * 2 ^ 57) ^ 2 * Real.exp (-(0.0835 * 2 ^ p)) ≤ 0.001 / 2 ^ p * (24 * (2 : ℝ) ^ p) ^ 2 :=
    fun k a b => (mul_le_mul_of_nonneg_left (exp_neg_pow a) (by positivity)).trans b
  interval_cases p
  · exact key 85 (by norm_num) (by norm_num)
  all_goals exact key 170 (by norm_num) (by norm_num)

/-- The mean of the dominating function. -/
theorem mean_dom (h1 : 10 ≤ p) (hp : p ≤ w) (hw : w ≤ 64) (hr : relVar w p n ≤ 1.094)
    (hone : mean (fun h : Fin n → Fin (2 ^ 64) => harm w p h / (2 ^ p * moment w p n (1 / 2))) = 1) :
    mean (fun h : Fin n → Fin (2 ^ 64) => dom (1 - harm w p h / (2 ^ p * moment w p n (1 / 2)))) ≤
      1.1219 / 2 ^ p := by
  have hm : (2 : ℝ) ^ 10 ≤ 2 ^ p := pow_le_pow_right₀ (by norm_num) h1
  have hm0 : (0 : ℝ) < 2 ^ p := by positivity
  have key := harm_mgf (n := n) hp hw (κ := 6) (by norm_num)
  have hx : Real.exp (6 / 2 ^ p) ≤ 1.006 := by
    have h6 : (6 : ℝ) / 2 ^ p ≤ 6 / 2 ^ 10 := by gcongr
    have h7 : Real.exp (6 / 2 ^ 10) ≤ 1.006 := by
      have := (abs_le.1 (Real.abs_exp_sub_one_sub_id_le (x := 6 / 2 ^ 10) (by norm_num [abs_le]))).2
      norm_num at this ⊢; linarith
    exact (Real.exp_le_exp.2 h6).trans h7
  set T : ℝ := 19.8102 / 2 ^ p with hT
  have hT0 : 0 ≤ T := by positivity
  have hT1 : T ≤ 0.01935 := by
    calc T ≤ 19.8102 / 2 ^ 10 := by rw [hT]; gcongr
      _ ≤ _ := by norm_num
  have h3 : (6 : ℝ) ^ 2 * (relVar w p n / 2 ^ p) / 2 * Real.exp (6 / 2 ^ p) ≤ T := by
    have a : (6 : ℝ) ^ 2 * (relVar w p n / 2 ^ p) / 2 ≤ 6 ^ 2 * (1.094 / 2 ^ p) / 2 := by gcongr
    calc _ ≤ (6 : ℝ) ^ 2 * (1.094 / 2 ^ p) / 2 * Real.exp (6 / 2 ^ p) := by gcongr
      _ ≤ 6 ^ 2 * (1.094 / 2 ^ p) / 2 * 1.006 := by gcongr
      _ = 19.810152 / 2 ^ p := by ring
      _ ≤ T := by rw [hT]; gcongr; norm_num
  have h4 := key.trans (Real.exp_le_exp.2 h3)
  have h5 := (abs_le.1 (Real.abs_exp_sub_one_sub_id_le (x := T) (by
    rw [abs_le]; norm_num at hT1 ⊢; constructor <;> linarith))).2
  have e : (fun h : Fin n → Fin (2 ^ 64) => dom (1 - harm w p h / (2 ^ p * moment w p n (1 / 2)))) =
      fun h => 1 / 18 * (Real.exp (6 * (1 - harm w p h / (2 ^ p * moment w p n (1 / 2)))) -
        (7 - 6 * (harm w p h / (2 ^ p * moment w p n (1 / 2))))) := by
    funext h; unfold dom; ring
  rw [e, mean_mul, mean_sub, mean_sub, mean_const, mean_mul, hone]
  have h6 : T ^ 2 ≤ 0.01935 * T := by nlinarith
  have h7 : 1.01935 * T / 18 ≤ 1.1219 / 2 ^ p := by
    rw [hT, show 1.01935 * (19.8102 / (2 : ℝ) ^ p) / 18 = (1.01935 * 19.8102 / 18) / 2 ^ p by ring]
    gcongr; norm_num
  norm_num at *
  linarith

/-- The error is at most the dominating function, unless the harmonic sum is small. -/
theorem sharp_near (hln : LnSpec ln) (v : Search) (h1 : 10 ≤ p) (h2 : p ≤ 18) (hn24 : 24 * 2 ^ p < n)
    (hn : n ≤ 2 ^ 59) {y : (Fin n → Fin (2 ^ 64)) → ℚ}
    (hy : ∀ h, plusCount ln (Plus.biasOf v) p (hashSet 64 h) = fin (y h)) (h : Fin n → Fin (2 ^ 64))
    (hz : 0.8 ≤ harm 64 p h / (2 ^ p * moment 64 p n (1 / 2))) :
    |(y h : ℝ) - n| ≤
      1.0006 * n * √(1.006 * dom (1 - harm 64 p h / (2 ^ p * moment 64 p n (1 / 2)))) +
        (0.00066 + 1.1 / 2 ^ p) * n := by
  have hm : (2 : ℝ) ^ 10 ≤ 2 ^ p := pow_le_pow_right₀ (by norm_num) h1
  have hm0 : (0 : ℝ) < 2 ^ p := by positivity
  have hn5 : 5 * 2 ^ p ≤ n := by omega
  obtain ⟨c1, c2, -⟩ := centre_near (w := 64) (by omega) h2 (by omega) hn5 (by omega)
  have hC := centre_pos (w := 64) (n := n) (p := p) (by omega) h2
  have hn24' : 24 * (2 : ℝ) ^ p < n := by exact_mod_cast hn24
  have hn0 : (0 : ℝ) < n := by linarith
  have hw4 : 1.1 / (2 : ℝ) ^ p ≤ 1.1 / 2 ^ 10 := by gcongr
  have hr := raw_ratio (w := 64) (n := n) (p := p) (by omega) h2 (by omega) h
  have hzp : 0 < harm 64 p h / (2 ^ p * moment 64 p n (1 / 2)) := by norm_num at hz; linarith
  have hd := dom_ge hz
  have hfar := @dom_far (harm 64 p h / (2 ^ p * moment 64 p n (1 / 2)))
  have hinv : 1 / (harm 64 p h / (2 ^ p * moment 64 p n (1 / 2))) ≤ 1.25 := by
    rw [div_le_iff₀ hzp]; norm_num at hz ⊢; linarith
  by_cases c : 5 * (2 : ℚ) ^ p < rawQ p (hsum 0 (regs 64 p (hashSet 64 h)))
  · have e : y h = rawQ p (hsum 0 (regs 64 p (hashSet 64 h))) := fin.inj
      ((hy h).symm.trans (plusCount_raw hln v (by omega) h2 (hashSet_lt h) c))
    rw [e]
    clear hfar
    generalize harm 64 p h / (2 ^ p * moment 64 p n (1 / 2)) = z at *
    generalize (rawQ p (hsum 0 (regs 64 p (hashSet 64 h))) : ℝ) = Y at *
    have h7 : centre 64 p n * (1 / z) ≤ 1.0006 * n * 1.25 :=
      mul_le_mul c2 hinv (by positivity) (by positivity)
    have e4 : (1 - 0.00065 - 1.1 / 2 ^ p) * (n : ℝ) = n - 0.00065 * n - 1.1 / 2 ^ p * n := by ring
    have e6 : 0 ≤ 1.1 / (2 : ℝ) ^ p * n := by positivity
    rw [e4] at c1
    have h8 : |centre 64 p n * (1 / z) - centre 64 p n| ≤ 1.0006 * n * √(1.006 * dom (1 - z)) := by
      rw [show centre 64 p n * (1 / z) - centre 64 p n = centre 64 p n * (1 / z - 1) by ring, abs_mul,
        abs_of_pos hC]
      exact mul_le_mul c2 (Real.abs_le_sqrt hd) (abs_nonneg _) (by positivity)
    rw [add_mul, abs_le]
    obtain ⟨r1, r2⟩ := abs_le.1 hr
    obtain ⟨g1, g2⟩ := abs_le.1 h8
    generalize 1.0006 * (n : ℝ) * √(1.006 * dom (1 - z)) = G at *
    generalize centre 64 p n * (1 / z) = x at *
    generalize 1.1 / (2 : ℝ) ^ p * n = ω at *
    generalize centre 64 p n = c at *
    norm_num at r1 r2 c1 c2 h7 ⊢
    constructor <;> linarith
  · rw [not_lt] at c
    obtain ⟨Y, k1, k2, _, k3⟩ := plusCount_range hln v (p := p) (by omega) h2 (S := hashSet 64 h)
    have e : y h = Y := fin.inj ((hy h).symm.trans k1)
    rw [e]
    have k2' : (0 : ℝ) ≤ Y := by exact_mod_cast k2
    have k4 : Y ≤ 6 * 2 ^ p + 3 := by
      rcases k3 with k3 | k3
      · exact k3
      · have : (0 : ℚ) < 2 ^ p := by positivity
        rw [k3]; linarith
    have k5 := (Rat.cast_le (K := ℝ)).2 k4
    push_cast at k5
    have c' := (Rat.cast_le (K := ℝ)).2 c
    push_cast at c'
    generalize harm 64 p h / (2 ^ p * moment 64 p n (1 / 2)) = z at *
    have hbig : (4.2 : ℝ) ≤ z := by
      have h3 : centre 64 p n * (1 / z) ≤ 5.001 * 2 ^ p := by
        have r1 := (abs_le.1 hr).1
        have : 0 < centre 64 p n * (1 / z) := by positivity
        generalize centre 64 p n * (1 / z) = x at *
        norm_num at r1 ⊢
        linarith
      have h4 : 0.99 * (n : ℝ) ≤ centre 64 p n := by
        refine le_trans (mul_le_mul_of_nonneg_right ?_ hn0.le) c1
        norm_num at hw4 ⊢; linarith
      rw [mul_one_div, div_le_iff₀ hzp] at h3
      by_contra hcon
      rw [not_le] at hcon
      have : 5.001 * 2 ^ p * z ≤ 5.001 * 2 ^ p * 4.2 := by gcongr
      clear hr hd hfar hinv c1 c2
      generalize centre 64 p n = c at *
      generalize 5.001 * (2 : ℝ) ^ p * z = d at *
      generalize (2 : ℝ) ^ p = m at *
      norm_num at h3 h4 this hn24'
      linarith
    have h5 : 1 ≤ √(1.006 * dom (1 - z)) := Real.one_le_sqrt.2 (hfar hbig)
    have h6 : 1.0006 * (n : ℝ) * 1 ≤ 1.0006 * n * √(1.006 * dom (1 - z)) := by gcongr
    have h7 : 0 ≤ (0.00066 + 1.1 / 2 ^ p) * (n : ℝ) := by positivity
    norm_num at hm
    rw [abs_le]
    constructor <;> norm_num at h6 ⊢ <;> linarith

open Classical in
/-- The mean square of the error. -/
theorem sharp_square (hln : LnSpec ln) (v : Search) (h1 : 10 ≤ p) (h2 : p ≤ 18) (hn24 : 24 * 2 ^ p < n)
    (hn : n ≤ 2 ^ 59) {y : (Fin n → Fin (2 ^ 64)) → ℚ}
    (hy : ∀ h, plusCount ln (Plus.biasOf v) p (hashSet 64 h) = fin (y h)) :
    mean (fun h => ((y h : ℝ) - n) ^ 2) ≤
      ((1.07 / √(2 ^ p) + (0.00066 + 1.1 / 2 ^ p)) * n) ^ 2 := by
  have H := ratio_plus (δ := 0.1) hln v (by omega) h2 (by omega) hn (by norm_num) (by norm_num) hy
  have hnear := sharp_near hln v h1 h2 hn24 hn hy
  have hm : (2 : ℝ) ^ 10 ≤ 2 ^ p := pow_le_pow_right₀ (by norm_num) h1
  have hm0 : (0 : ℝ) < 2 ^ p := by positivity
  have hn0 : (0 : ℝ) < n := by exact_mod_cast (by omega : 0 < n)
  have hrv : relVar 64 p n ≤ 1.094 := by
    obtain ⟨-, -, c3⟩ := centre_near (w := 64) (n := n) (by omega) h2 (by omega) (by omega) (by omega)
    have : 4 / (2 : ℝ) ^ p ≤ 4 / 2 ^ 10 := by gcongr
    norm_num at *; linarith
  have hdom := mean_dom h1 (by omega) le_rfl hrv H.one
  have htail : fraction (fun h : Fin n → Fin (2 ^ 64) =>
      harm 64 p h / (2 ^ p * moment 64 p n (1 / 2)) ≤ 0.8) ≤ 0.0002 / 2 ^ p := by
    refine le_trans (harm_lower (κ := 0.15) (g := 1.162) (by omega) le_rfl (by norm_num) ?_ hrv
      (by norm_num)) (le_trans (Real.exp_le_exp.2 ?_) (sharp_tail h1 h2))
    · have h1 := exp_cubic (x := 0.15) (by norm_num)
      have h3 := Real.exp_pos 0.15
      norm_num at h1 ⊢
      linarith
    · norm_num
  have hhalf : (187 * 2 ^ 57 : ℝ) ^ 2 * fraction (fun h : Fin n → Fin (2 ^ 64) =>
      harm 64 p h / (2 ^ p * moment 64 p n (1 / 2)) ≤ 1 / 2) ≤ 0.001 / 2 ^ p * (n : ℝ) ^ 2 := by
    refine le_trans (mul_le_mul_of_nonneg_left (le_trans (harm_lower (κ := 0.3) (g := 1.3501)
      (by omega) le_rfl (by norm_num) ?_ hrv (by norm_num)) (Real.exp_le_exp.2 ?_)) (by positivity))
      (sharp_rest h1 h2 hn24)
    · have h2 : Real.exp 0.3 = Real.exp 0.15 ^ 2 := by rw [← Real.exp_nat_mul]; norm_num
      have h3 := exp_cubic (x := 0.15) (by norm_num)
      have h4 : Real.exp 0.15 ≤ 1.16191 := by norm_num at h3 ⊢; linarith
      rw [h2]
      calc Real.exp 0.15 ^ 2 ≤ 1.16191 ^ 2 := pow_le_pow_left₀ (Real.exp_pos _).le h4 2
        _ ≤ 1.3501 := by norm_num
    · norm_num
  have hmid := H.mid
  have hall := H.all
  generalize hZ : (fun h : Fin n → Fin (2 ^ 64) => harm 64 p h / (2 ^ p * moment 64 p n (1 / 2))) = Z at *
  have hZ' : ∀ h, harm 64 p h / (2 ^ p * moment 64 p n (1 / 2)) = Z h := fun h => congrFun hZ h
  simp only [hZ'] at hnear hdom htail hhalf hmid hall
  set b : ℝ := 0.00066 + 1.1 / 2 ^ p with hb
  have hb0 : 0 ≤ b := by positivity
  obtain ⟨G, hG⟩ : ∃ G : (Fin n → Fin (2 ^ 64)) → ℝ,
    G = fun h => 1.0006 * n * √(1.006 * dom (1 - Z h)) := ⟨_, rfl⟩
  have hG0 : ∀ h, 0 ≤ G h := fun h => by rw [hG]; positivity
  have hs : 0 < √((2 : ℝ) ^ p) := Real.sqrt_pos.2 hm0
  have hx2 : (1 / √((2 : ℝ) ^ p)) ^ 2 = 1 / 2 ^ p := by
    rw [div_pow, Real.sq_sqrt hm0.le, one_pow]
  have hG2 : mean (fun h => G h ^ 2) ≤ (1.0631 * (1 / √(2 ^ p)) * n) ^ 2 := by
    have e : (fun h => G h ^ 2) = fun h => (1.0006 * n) ^ 2 * 1.006 * dom (1 - Z h) := by
      funext h
      rw [hG]
      simp only
      rw [mul_pow, Real.sq_sqrt (mul_nonneg (by norm_num) (dom_nonneg _))]
      ring
    rw [e, mean_mul, mul_pow (1.0631 * _), mul_pow 1.0631, hx2]
    calc (1.0006 * (n : ℝ)) ^ 2 * 1.006 * mean (fun h => dom (1 - Z h))
        ≤ (1.0006 * (n : ℝ)) ^ 2 * 1.006 * (1.1219 / 2 ^ p) := by gcongr
      _ = (1.0006 ^ 2 * 1.006 * 1.1219) * (1 / 2 ^ p * (n : ℝ) ^ 2) := by ring
      _ ≤ 1.0631 ^ 2 * (1 / 2 ^ p * (n : ℝ) ^ 2) := by gcongr; norm_num
      _ = _ := by ring
  have hG1 : mean G ≤ 1.0631 * (1 / √(2 ^ p)) * n := by
    have := mean_abs_le (f := G) (by positivity) hG2
    simpa only [abs_of_nonneg (hG0 _)] using this
  have hpt : ∀ h, ((y h : ℝ) - n) ^ 2 ≤ G h ^ 2 + 2 * (b * n) * G h + (b * n) ^ 2 +
      1.03 * n ^ 2 * (if Z h ≤ 0.8 then 1 else 0) +
      (187 * 2 ^ 57) ^ 2 * (if Z h ≤ 1 / 2 then 1 else 0) := by
    intro h
    have g := hG0 h
    have g0 : 0 ≤ G h ^ 2 + 2 * (b * n) * G h + (b * n) ^ 2 := by positivity
    have g1 : 0 ≤ 1.03 * (n : ℝ) ^ 2 * (if Z h ≤ 0.8 then 1 else 0) := by split <;> positivity
    have g2 : 0 ≤ (187 * 2 ^ 57 : ℝ) ^ 2 * (if Z h ≤ 1 / 2 then (1 : ℝ) else 0) := by
      split <;> positivity
    by_cases c1 : Z h ≤ 0.8
    · by_cases c2 : Z h ≤ 1 / 2
      · have a1 : ((y h : ℝ) - n) ^ 2 ≤ (187 * 2 ^ 57) ^ 2 := by
          rw [← sq_abs]; exact pow_le_pow_left₀ (abs_nonneg _) (hall h) 2
        rw [if_pos c2] at g2 ⊢
        linarith
      · have a1 : ((y h : ℝ) - n) ^ 2 ≤ (1.01 * n) ^ 2 := by
          rw [← sq_abs]; exact pow_le_pow_left₀ (abs_nonneg _) (hmid h (not_le.1 c2)) 2
        rw [if_pos c1]
        have : (1.01 * (n : ℝ)) ^ 2 ≤ 1.03 * n ^ 2 * 1 := by
          have := sq_nonneg (n : ℝ)
          rw [mul_pow]; norm_num; linarith
        linarith
    · have a3 : |(y h : ℝ) - n| ≤ G h + b * n := by rw [hG]; exact hnear h (not_le.1 c1).le
      have a4 : ((y h : ℝ) - n) ^ 2 ≤ (G h + b * n) ^ 2 := by
        rw [← sq_abs]; exact pow_le_pow_left₀ (abs_nonneg _) a3 2
      have e : (G h + b * n) ^ 2 = G h ^ 2 + 2 * (b * n) * G h + (b * n) ^ 2 := by ring
      linarith
  have h3 := mean_mono hpt
  rw [mean_add, mean_add, mean_add, mean_add, mean_mul, mean_mul, mean_mul, mean_const,
    ← fraction_eq_mean, ← fraction_eq_mean] at h3
  have h5 : 2 * (b * n) * mean (fun h => G h) ≤ 2 * (b * n) * (1.0631 * (1 / √(2 ^ p)) * n) := by
    gcongr
  have h6 : 1.03 * (n : ℝ) ^ 2 * fraction (fun h => Z h ≤ 0.8) ≤ 1.03 * n ^ 2 * (0.0002 / 2 ^ p) := by
    gcongr
  refine h3.trans ((add_le_add (add_le_add (add_le_add (add_le_add hG2 h5) le_rfl) h6) hhalf).trans ?_)
  rw [div_eq_mul_one_div 1.07]
  have hx : 0 < 1 / √((2 : ℝ) ^ p) := by positivity
  rw [div_eq_mul_one_div 0.0002, div_eq_mul_one_div 0.001, ← hx2]
  generalize 1 / √((2 : ℝ) ^ p) = x at *
  have e : ((1.07 * x + b) * n) ^ 2 - ((1.0631 * x * n) ^ 2 + 2 * (b * n) * (1.0631 * x * n) + (b * n) ^ 2 +
      1.03 * n ^ 2 * (0.0002 * x ^ 2) + 0.001 * x ^ 2 * n ^ 2) =
      ((1.07 ^ 2 - 1.0631 ^ 2 - 1.03 * 0.0002 - 0.001) * x ^ 2 + 2 * (1.07 - 1.0631) * b * x) * n ^ 2 := by
    ring
  have : 0 ≤ ((1.07 ^ 2 - 1.0631 ^ 2 - 1.03 * 0.0002 - 0.001) * x ^ 2 + 2 * (1.07 - 1.0631) * b * x) *
      (n : ℝ) ^ 2 := by
    refine mul_nonneg (add_nonneg (mul_nonneg (by norm_num) (by positivity))
      (mul_nonneg (mul_nonneg (by norm_num) hb0) hx.le)) (by positivity)
  linarith

end HLL
