import Verif.Proofs.ExpSums
import Verif.Proofs.Moments

/-! # The mean and variance of the harmonic sum in terms of `E` -/

namespace HLL.Exps
open Real Finset Osc

theorem EK_step (K : Nat) (l : ℝ) :
    EK (K + 1) l = EK K l - (1 / 2) ^ (K + 1) * (1 - exp (-(l / 2 ^ K))) := by
  rw [EK, EK, sum_range_succ, pow_succ (1 / 2 : ℝ) K]; ring

theorem EK_anti (d : Nat) {l : ℝ} (hl : 0 ≤ l) : EK (17 + d) l ≤ E l := by
  induction d with
  | zero => exact le_rfl
  | succ d ih =>
    refine le_trans ?_ ih
    rw [← add_assoc, EK_step]
    have : exp (-(l / 2 ^ (17 + d))) ≤ 1 := exp_le_one_iff.2 (by
      have : 0 ≤ l / 2 ^ (17 + d) := by positivity
      linarith)
    have h2 : (0 : ℝ) ≤ (1 / 2) ^ (17 + d + 1) := by positivity
    nlinarith

theorem EK_ge (d : Nat) {l : ℝ} (hl : 0 ≤ l) :
    E l - l * (1 - (1 / 4) ^ d) / 2 ^ 34 ≤ EK (17 + d) l := by
  induction d with
  | zero => simp [E]
  | succ d ih =>
    rw [← add_assoc, EK_step]
    have h1 : 1 - exp (-(l / 2 ^ (17 + d))) ≤ l / 2 ^ (17 + d) := by
      have := add_one_le_exp (-(l / 2 ^ (17 + d)))
      linarith
    have h2 : (1 / 2 : ℝ) ^ (17 + d + 1) * (1 - exp (-(l / 2 ^ (17 + d)))) ≤
        (1 / 2) ^ (17 + d + 1) * (l / 2 ^ (17 + d)) := by gcongr
    have h3 : (1 / 2 : ℝ) ^ (17 + d + 1) * (l / 2 ^ (17 + d)) = l * (1 / 4) ^ d / 2 ^ 35 := by
      have e : (1 / 4 : ℝ) ^ d = (1 / 2) ^ d * (1 / 2) ^ d := by rw [← mul_pow]; norm_num
      have e1 : (1 / 2 : ℝ) ^ d * 2 ^ d = 1 := by rw [← mul_pow]; norm_num
      have e2 : (2 : ℝ) ^ d ≠ 0 := by positivity
      rw [e, pow_add, pow_add, pow_add, div_mul_eq_div_div]
      rw [show (1 / 2 : ℝ) ^ d = 1 / 2 ^ d by rw [one_div, inv_pow, one_div]]
      ring
    have h4 : l * (1 - (1 / 4) ^ (d + 1)) / 2 ^ 34 =
        l * (1 - (1 / 4) ^ d) / 2 ^ 34 + 3 / 2 * (l * (1 / 4) ^ d / 2 ^ 35) := by
      rw [pow_succ]; ring
    have h5 : 0 ≤ l * (1 / 4) ^ d / 2 ^ 35 := by positivity
    rw [h4]
    linarith

theorem E_ge {l : ℝ} (h6 : l ≤ 6) : 0.119 ≤ E l := by
  refine le_trans ?_ (E_anti h6)
  have := (local_bounds (x := 6) (by norm_num) le_rfl).value (by norm_num)
  norm_num at this ⊢
  linarith

theorem E_le_one {l : ℝ} (h : 0 ≤ l) : E l ≤ 1 := by
  refine (E_anti h).trans (le_of_eq ?_)
  have : E 0 = EK 17 0 := rfl
  rw [this, EK]
  simp only [zero_div, neg_zero, exp_zero, mul_one, sum_range_succ, sum_range_zero]
  norm_num

/-- `v e^-v` against a slower exponential. -/
theorem g_le_half {v : ℝ} : g v ≤ 0.736 * exp (-(v / 2)) := by
  have h1 : v / 2 * exp (-(v / 2)) ≤ exp (-1) := by
    have h := add_one_le_exp (v / 2 - 1)
    have e : exp (v / 2 - 1) * exp (-(v / 2)) = exp (-1) := by rw [← exp_add]; congr 1; ring
    have hp := exp_pos (-(v / 2))
    rw [← e]
    gcongr
    linarith
  have h2 : exp (-1) ≤ 0.368 := by
    have := exp_one_gt_d9
    rw [exp_neg, inv_le_comm₀ (exp_pos 1) (by norm_num)]
    norm_num at this ⊢
    linarith
  have e : g v = 2 * (v / 2 * exp (-(v / 2))) * exp (-(v / 2)) := by
    rw [g]
    have : exp (-v) = exp (-(v / 2)) * exp (-(v / 2)) := by rw [← exp_add]; congr 1; ring
    rw [this]; ring
  rw [e]
  gcongr
  norm_num at h2 ⊢
  linarith

variable {w p n : Nat}

theorem moment_le_EK : moment w p n (1 / 2) ≤ EK (w - p + 1) (n / 2 ^ p) := by
  rw [moment, EK, add_comm]
  refine add_le_add (sum_le_sum fun k _ => ?_) le_rfl
  have h := pow_le_exp (arg_le (p := p) k) n
  rw [arg_eq] at h
  rw [half_pow_sub, pow_succ, mul_one_div]
  gcongr

theorem EK_le_moment : (1 - 1.472 / 2 ^ p) * EK (w - p + 1) (n / 2 ^ p) ≤ moment w p n (1 / 2) := by
  set R := w - p + 1 with hR
  set l := (n : ℝ) / 2 ^ p with hl
  have hl0 : 0 ≤ l := by positivity
  have h1 : ∀ k, (1 / 2 : ℝ) ^ (k + 1) * exp (-(l / 2 ^ k)) -
      1.472 / 2 ^ p * ((1 / 2) ^ (k + 2) * exp (-(l / 2 ^ (k + 1)))) ≤
      ((1 / 2 : ℝ) ^ k - (1 / 2) ^ (k + 1)) * (1 - 1 / 2 ^ (p + k)) ^ n := by
    intro k
    have h := exp_le_pow (x := 1 / 2 ^ (p + k)) (by positivity) (arg_le (p := p) k) n
    have hx : (n : ℝ) * (1 / 2 ^ (p + k)) ^ 2 = l / 2 ^ k * (1 / 2) ^ k / 2 ^ p := by
      rw [hl, pow_add, show (1 / 2 : ℝ) ^ k = 1 / 2 ^ k by rw [one_div, inv_pow, one_div]]
      field_simp
    rw [arg_eq, ← hl, hx] at h
    have e : (1 / 2 : ℝ) ^ k - (1 / 2) ^ (k + 1) = (1 / 2) ^ (k + 1) := by rw [pow_succ]; ring
    rw [e]
    refine le_trans ?_ (mul_le_mul_of_nonneg_left h (by positivity))
    have hg := g_le_half (v := l / 2 ^ k)
    rw [g] at hg
    have e2 : l / 2 ^ k / 2 = l / 2 ^ (k + 1) := by rw [pow_succ, div_div]
    rw [e2] at hg
    have hk : (1 / 2 : ℝ) ^ k ≤ 1 := pow_le_one₀ (by norm_num) (by norm_num)
    have h2 : l / 2 ^ k * exp (-(l / 2 ^ k)) * (1 / 2) ^ k ≤ 0.736 * exp (-(l / 2 ^ (k + 1))) := by
      have h3 : 0 ≤ l / 2 ^ k * exp (-(l / 2 ^ k)) := by positivity
      nlinarith
    have h4 : (1 / 2 : ℝ) ^ (k + 1) / 2 ^ p * (l / 2 ^ k * exp (-(l / 2 ^ k)) * (1 / 2) ^ k) ≤
        (1 / 2) ^ (k + 1) / 2 ^ p * (0.736 * exp (-(l / 2 ^ (k + 1)))) := by gcongr
    have e3 : (1.472 : ℝ) / 2 ^ p * ((1 / 2) ^ (k + 2) * exp (-(l / 2 ^ (k + 1)))) =
        (1 / 2) ^ (k + 1) / 2 ^ p * (0.736 * exp (-(l / 2 ^ (k + 1)))) := by
      rw [pow_succ (1 / 2 : ℝ) (k + 1)]; ring
    rw [e3]
    refine le_trans (sub_le_sub_left h4 _) (le_of_eq ?_)
    ring
  have h2 := sum_le_sum fun k (_ : k ∈ range R) => h1 k
  rw [sum_sub_distrib, ← mul_sum] at h2
  have h3 : ∑ k ∈ range R, (1 / 2 : ℝ) ^ (k + 2) * exp (-(l / 2 ^ (k + 1))) ≤ EK R l := by
    rw [EK]
    have h4 : ∑ k ∈ range R, (1 / 2 : ℝ) ^ (k + 2) * exp (-(l / 2 ^ (k + 1))) +
        (1 / 2) ^ 1 * exp (-(l / 2 ^ 0)) =
        ∑ k ∈ range R, (1 / 2 : ℝ) ^ (k + 1) * exp (-(l / 2 ^ k)) +
        (1 / 2 : ℝ) ^ (R + 1) * exp (-(l / 2 ^ R)) := by
      rw [← sum_range_succ, sum_range_succ' _ R]
    have h5 : (0 : ℝ) ≤ (1 / 2) ^ 1 * exp (-(l / 2 ^ 0)) := by positivity
    have h6 : (1 / 2 : ℝ) ^ (R + 1) * exp (-(l / 2 ^ R)) ≤ (1 / 2) ^ R := by
      have h7 : exp (-(l / 2 ^ R)) ≤ 1 := exp_le_one_iff.2 (by
        have : 0 ≤ l / 2 ^ R := by positivity
        linarith)
      have h8 : (1 / 2 : ℝ) ^ (R + 1) ≤ (1 / 2) ^ R :=
        pow_le_pow_of_le_one (by norm_num) (by norm_num) (Nat.le_succ _)
      calc (1 / 2 : ℝ) ^ (R + 1) * exp (-(l / 2 ^ R)) ≤ (1 / 2) ^ R * 1 := by gcongr
        _ = _ := mul_one _
    linarith
  have h4 : 1.472 / 2 ^ p * ∑ k ∈ range R, (1 / 2 : ℝ) ^ (k + 2) * exp (-(l / 2 ^ (k + 1))) ≤
      1.472 / 2 ^ p * EK R l := by gcongr
  rw [moment, ← hR]
  have e : EK R l = ∑ k ∈ range R, (1 / 2) ^ (k + 1) * exp (-(l / 2 ^ k)) + (1 / 2) ^ R := rfl
  rw [sub_mul, one_mul]
  linarith

/-- The mean of `2^-M`. -/
theorem moment_half_bounds (hp1 : 1 ≤ p) (hp : p ≤ 18) (hw : p + 16 ≤ w) (hn : n ≤ 6 * 2 ^ p) :
    (1 - 1.5 / 2 ^ p) * E (n / 2 ^ p) ≤ moment w p n (1 / 2) ∧
      moment w p n (1 / 2) ≤ E (n / 2 ^ p) := by
  obtain ⟨d, hd⟩ : ∃ d, w - p + 1 = 17 + d := ⟨w - p - 16, by omega⟩
  have hl0 : (0 : ℝ) ≤ n / 2 ^ p := by positivity
  have hl6 : (n : ℝ) / 2 ^ p ≤ 6 := by
    rw [div_le_iff₀ (by positivity)]; exact_mod_cast hn
  have h1 := moment_le_EK (w := w) (p := p) (n := n)
  have h2 := EK_le_moment (w := w) (p := p) (n := n)
  rw [hd] at h1 h2
  refine ⟨le_trans ?_ h2, h1.trans (EK_anti d hl0)⟩
  have h3 := EK_ge d hl0
  have h4 := E_ge hl6
  generalize (n : ℝ) / 2 ^ p = l at *
  have h5 : l * (1 - (1 / 4) ^ d) / 2 ^ 34 ≤ 6 * 1 / 2 ^ 34 := by
    have : (0 : ℝ) ≤ (1 / 4) ^ d := by positivity
    have : (1 / 4 : ℝ) ^ d ≤ 1 := pow_le_one₀ (by norm_num) (by norm_num)
    gcongr
    linarith
  have hm : (2 : ℝ) ^ p ≤ 2 ^ 18 := pow_le_pow_right₀ (by norm_num) hp
  have hm1 : (2 : ℝ) ≤ 2 ^ p := by
    calc (2 : ℝ) = 2 ^ 1 := by norm_num
      _ ≤ 2 ^ p := pow_le_pow_right₀ (by norm_num) hp1
  have hm0 : (0 : ℝ) < 2 ^ p := by positivity
  have h6 : 1 / 2 ^ 18 ≤ 1 / (2 : ℝ) ^ p := by gcongr
  have h7 : 1 / (2 : ℝ) ^ p ≤ 1 / 2 := by gcongr
  have e1 : 1.5 / (2 : ℝ) ^ p = 1.5 * (1 / 2 ^ p) := by ring
  have e2 : 1.472 / (2 : ℝ) ^ p = 1.472 * (1 / 2 ^ p) := by ring
  rw [e1, e2]
  generalize 1 / (2 : ℝ) ^ p = z at *
  have h8 : E l - 6 / 2 ^ 34 ≤ EK (17 + d) l := by linarith
  have h9 : (1 - 1.472 * z) * (E l - 6 / 2 ^ 34) ≤ (1 - 1.472 * z) * EK (17 + d) l :=
    mul_le_mul_of_nonneg_left h8 (by norm_num; linarith)
  refine le_trans ?_ h9
  norm_num at *
  nlinarith

/-- The mean of `4^-M`. -/
theorem moment_quarter_bound (hw : p + 16 ≤ w) :
    moment w p n (1 / 4) ≤ 3 / 2 * D (n / 2 ^ p) + 1 / 2 ^ 34 := by
  obtain ⟨d, hd⟩ : ∃ d, w - p + 1 = 17 + d := ⟨w - p - 16, by omega⟩
  set l := (n : ℝ) / 2 ^ p with hl
  have hl0 : 0 ≤ l := by positivity
  have h1 : moment w p n (1 / 4) ≤ ∑ k ∈ range (17 + d),
      3 / 2 * ((1 / 2) ^ (2 * k + 1) * exp (-(l / 2 ^ k))) + (1 / 4) ^ (17 + d) := by
    rw [moment, hd, add_comm]
    refine add_le_add (sum_le_sum fun k _ => ?_) le_rfl
    have h := pow_le_exp (arg_le (p := p) k) n
    rw [arg_eq, ← hl] at h
    have e : (1 / 4 : ℝ) ^ k - (1 / 4) ^ (k + 1) = 3 / 2 * (1 / 2) ^ (2 * k + 1) := by
      rw [quarter_pow_sub, pow_succ (1 / 2 : ℝ), pow_mul]; norm_num; ring
    rw [e, mul_assoc]
    gcongr
  refine h1.trans ?_
  clear h1 hd hw
  induction d with
  | zero =>
    rw [D, DK, ← mul_sum]
    norm_num
  | succ d ih =>
    refine le_trans ?_ ih
    rw [← add_assoc, sum_range_succ, add_assoc]
    refine add_le_add le_rfl ?_
    have h7 : exp (-(l / 2 ^ (17 + d))) ≤ 1 := exp_le_one_iff.2 (by
      have : 0 ≤ l / 2 ^ (17 + d) := by positivity
      linarith)
    have e : (1 / 2 : ℝ) ^ (2 * (17 + d) + 1) = (1 / 4) ^ (17 + d) / 2 := by
      rw [pow_succ, pow_mul]; norm_num; ring
    rw [e, pow_succ (1 / 4 : ℝ)]
    have h8 : (0 : ℝ) ≤ (1 / 4) ^ (17 + d) := by positivity
    nlinarith

/-! ## Interpolation -/

section
variable {x y θ : ℝ}

theorem E_convex (h0 : 0 ≤ θ) (h1 : θ ≤ 1) :
    E ((1 - θ) * x + θ * y) ≤ (1 - θ) * E x + θ * E y := by
  have h : ∀ k ∈ range 17, (1 / 2 : ℝ) ^ (k + 1) * exp (-(((1 - θ) * x + θ * y) / 2 ^ k)) ≤
      (1 - θ) * ((1 / 2) ^ (k + 1) * exp (-(x / 2 ^ k))) +
        θ * ((1 / 2) ^ (k + 1) * exp (-(y / 2 ^ k))) := by
    intro k _
    have tangent : ∀ u z : ℝ, exp z * (1 + (u - z)) ≤ exp u := by
      intro u z
      have h3 : exp u = exp z * exp (u - z) := by rw [← exp_add]; congr 1; ring
      rw [h3]
      exact mul_le_mul_of_nonneg_left (by linarith [add_one_le_exp (u - z)]) (exp_pos z).le
    have h2 : exp ((1 - θ) * -(x / 2 ^ k) + θ * -(y / 2 ^ k)) ≤
        (1 - θ) * exp (-(x / 2 ^ k)) + θ * exp (-(y / 2 ^ k)) := by
      have ta := mul_le_mul_of_nonneg_left
        (tangent (-(x / 2 ^ k)) ((1 - θ) * -(x / 2 ^ k) + θ * -(y / 2 ^ k))) (sub_nonneg.2 h1)
      have tb := mul_le_mul_of_nonneg_left
        (tangent (-(y / 2 ^ k)) ((1 - θ) * -(x / 2 ^ k) + θ * -(y / 2 ^ k))) h0
      refine le_trans (le_of_eq ?_) (add_le_add ta tb)
      ring
    have e : (1 - θ) * -(x / 2 ^ k) + θ * -(y / 2 ^ k) = -(((1 - θ) * x + θ * y) / 2 ^ k) := by ring
    rw [e] at h2
    have := mul_le_mul_of_nonneg_left h2 (by positivity : (0 : ℝ) ≤ (1 / 2) ^ (k + 1))
    linarith
  have h2 := sum_le_sum h
  rw [sum_add_distrib, ← mul_sum, ← mul_sum] at h2
  rw [E, E, E, EK, EK, EK]
  linarith

theorem E_chord (h0 : 0 ≤ θ) (h1 : θ ≤ 1) (hxy : x ≤ y) :
    (1 - (y - x) ^ 2 / 2) * ((1 - θ) * E x + θ * E y) ≤ E ((1 - θ) * x + θ * y) := by
  have key : ∀ a d : ℝ, 0 ≤ d →
      (1 - d ^ 2 / 2) * ((1 - θ) * exp (-a) + θ * exp (-(a + d))) ≤ exp (-(a + θ * d)) := by
    intro a d hd
    have e1 : exp (-(a + d)) = exp (-a) * exp (-d) := by rw [← exp_add]; congr 1; ring
    have e2 : exp (-(a + θ * d)) = exp (-a) * exp (-(θ * d)) := by rw [← exp_add]; congr 1; ring
    rw [e1, e2]
    have hq : exp (-d) ≤ 1 - d + d ^ 2 / 2 := by
      have h3 := quadratic_le_exp_of_nonneg hd
      have h4 : exp (-d) * exp d = 1 := by rw [← exp_add]; simp
      have hp := exp_pos (-d)
      have h6 : 0 ≤ 1 - d + d ^ 2 / 2 := by nlinarith [sq_nonneg (d - 1)]
      have h5 : 1 ≤ (1 - d + d ^ 2 / 2) * (1 + d + d ^ 2 / 2) := by nlinarith [sq_nonneg (d ^ 2)]
      by_contra hcon
      rw [not_le] at hcon
      have : (1 - d + d ^ 2 / 2) * (1 + d + d ^ 2 / 2) < exp (-d) * exp d := by
        have h7 : (1 - d + d ^ 2 / 2) * (1 + d + d ^ 2 / 2) ≤ (1 - d + d ^ 2 / 2) * exp d :=
          mul_le_mul_of_nonneg_left h3 h6
        exact h7.trans_lt (mul_lt_mul_of_pos_right hcon (exp_pos d))
      linarith
    have hc : (1 - θ) + θ * exp (-d) ≤ 1 - θ * d + θ * (d ^ 2 / 2) := by nlinarith
    have h3 := add_one_le_exp (-(θ * d) + d ^ 2 / 2)
    have h4 : 1 - d ^ 2 / 2 ≤ exp (-(d ^ 2 / 2)) := by
      have := add_one_le_exp (-(d ^ 2 / 2)); linarith
    have hd2 : 0 ≤ d ^ 2 / 2 := by positivity
    have h5 : (1 - θ) + θ * exp (-d) ≤ exp (-(θ * d) + d ^ 2 / 2) := by nlinarith
    have h6 : (0 : ℝ) ≤ (1 - θ) + θ * exp (-d) := by
      have := exp_pos (-d); nlinarith
    have h7 : (1 - d ^ 2 / 2) * ((1 - θ) + θ * exp (-d)) ≤ exp (-(θ * d)) := by
      calc (1 - d ^ 2 / 2) * ((1 - θ) + θ * exp (-d)) ≤
            exp (-(d ^ 2 / 2)) * exp (-(θ * d) + d ^ 2 / 2) := by gcongr
        _ = exp (-(θ * d)) := by rw [← exp_add]; congr 1; ring
    calc (1 - d ^ 2 / 2) * ((1 - θ) * exp (-a) + θ * (exp (-a) * exp (-d)))
        = exp (-a) * ((1 - d ^ 2 / 2) * ((1 - θ) + θ * exp (-d))) := by ring
      _ ≤ _ := mul_le_mul_of_nonneg_left h7 (exp_pos _).le
  have h : ∀ k ∈ range 17, (1 - (y - x) ^ 2 / 2) * ((1 - θ) * ((1 / 2) ^ (k + 1) * exp (-(x / 2 ^ k))) +
      θ * ((1 / 2) ^ (k + 1) * exp (-(y / 2 ^ k)))) ≤
      (1 / 2 : ℝ) ^ (k + 1) * exp (-(((1 - θ) * x + θ * y) / 2 ^ k)) := by
    intro k _
    have hd : 0 ≤ (y - x) / 2 ^ k := div_nonneg (by linarith) (by positivity)
    have h2 := key (x / 2 ^ k) ((y - x) / 2 ^ k) hd
    have e1 : x / 2 ^ k + (y - x) / 2 ^ k = y / 2 ^ k := by ring
    have e2 : x / 2 ^ k + θ * ((y - x) / 2 ^ k) = ((1 - θ) * x + θ * y) / 2 ^ k := by ring
    rw [e1, e2] at h2
    have hdd : ((y - x) / 2 ^ k) ^ 2 ≤ (y - x) ^ 2 := by
      apply pow_le_pow_left₀ hd
      apply div_le_self (by linarith)
      exact one_le_pow₀ (by norm_num)
    have hpos : 0 ≤ (1 - θ) * exp (-(x / 2 ^ k)) + θ * exp (-(y / 2 ^ k)) := by
      have := exp_pos (-(x / 2 ^ k))
      have := exp_pos (-(y / 2 ^ k))
      have : 0 ≤ 1 - θ := by linarith
      positivity
    have h3 : (1 - (y - x) ^ 2 / 2) * ((1 - θ) * exp (-(x / 2 ^ k)) + θ * exp (-(y / 2 ^ k))) ≤
        exp (-(((1 - θ) * x + θ * y) / 2 ^ k)) := by
      refine le_trans (mul_le_mul_of_nonneg_right ?_ hpos) h2
      linarith
    have := mul_le_mul_of_nonneg_left h3 (by positivity : (0 : ℝ) ≤ (1 / 2) ^ (k + 1))
    refine le_trans (le_of_eq ?_) this
    ring
  have h2 := sum_le_sum h
  rw [← mul_sum, sum_add_distrib, ← mul_sum, ← mul_sum] at h2
  rw [E, E, E, EK, EK, EK]
  have : 0 ≤ (y - x) ^ 2 / 2 := by positivity
  nlinarith

theorem E_exp (hxy : x ≤ y) : E x ≤ exp (y - x) * E y := by
  have h : ∀ k ∈ range 17, (1 / 2 : ℝ) ^ (k + 1) * exp (-(x / 2 ^ k)) ≤
      exp (y - x) * ((1 / 2) ^ (k + 1) * exp (-(y / 2 ^ k))) := by
    intro k _
    have h2 : exp (-(x / 2 ^ k)) ≤ exp (y - x) * exp (-(y / 2 ^ k)) := by
      rw [← exp_add]
      apply exp_le_exp.2
      have : (y - x) / 2 ^ k ≤ y - x := div_le_self (by linarith) (one_le_pow₀ (by norm_num))
      have e : (y - x) / 2 ^ k = y / 2 ^ k - x / 2 ^ k := by ring
      linarith
    calc _ ≤ (1 / 2 : ℝ) ^ (k + 1) * (exp (y - x) * exp (-(y / 2 ^ k))) := by gcongr
      _ = _ := by ring
  have h2 := sum_le_sum h
  rw [← mul_sum] at h2
  rw [E, E, EK, EK, mul_add]
  have : 1 ≤ exp (y - x) := one_le_exp (by linarith)
  have h3 : (0 : ℝ) ≤ (1 / 2) ^ 17 := by positivity
  nlinarith

theorem interpolate_last {d τ : ℝ} (hd0 : 0 ≤ d) (hd : d ≤ 1 / 16) (hτ : τ ≤ 3 / 25) :
    (1 + τ) * (1 + 1 / 4 * (d * (1 + d)) ^ 2) ≤ 1 + τ + d ^ 2 / 2 := by
  have h1 : (1 + d) ^ 2 ≤ 113 / 100 := by nlinarith
  have h5 : (d * (1 + d)) ^ 2 ≤ 113 / 100 * d ^ 2 := by
    rw [mul_pow]
    nlinarith [sq_nonneg d]
  have h6 : (1 + τ) * (1 / 4 * (d * (1 + d)) ^ 2) ≤ 28 / 25 * (1 / 4 * (113 / 100 * d ^ 2)) := by
    apply mul_le_mul (by linarith) (by linarith) (by positivity) (by norm_num)
  nlinarith [sq_nonneg d]

theorem interpolate_arith {θ d r s A τ a b Ez : ℝ} (h0 : 0 ≤ θ) (h1 : θ ≤ 1) (hd0 : 0 ≤ d)
    (hd : d ≤ 1 / 16) (hA : 0 < A) (hτ0 : 0 ≤ τ) (hτ : τ ≤ 0.12)
    (hr1 : (1 - τ) * A ≤ r * a) (hr2 : r * a ≤ (1 + τ) * A)
    (hs1 : (1 - τ) * A ≤ s * b) (hs2 : s * b ≤ (1 + τ) * A) (hEx : 0 < a) (hEy : 0 < b)
    (c1 : Ez ≤ (1 - θ) * a + θ * b) (c2 : (1 - d ^ 2 / 2) * ((1 - θ) * a + θ * b) ≤ Ez)
    (c3 : a ≤ (1 + d * (1 + d)) * b) (c4 : b ≤ a) :
    (1 - τ - d ^ 2 / 2) * A ≤ ((1 - θ) * r + θ * s) * Ez ∧
      ((1 - θ) * r + θ * s) * Ez ≤ (1 + τ + d ^ 2 / 2) * A := by
  have hτ' : τ ≤ 3 / 25 := by norm_num at hτ ⊢; linarith
  have hr1' : (1 - τ) * A / a ≤ r := by rw [div_le_iff₀ hEx]; exact hr1
  have hr2' : r ≤ (1 + τ) * A / a := by rw [le_div_iff₀ hEx]; exact hr2
  have hs1' : (1 - τ) * A / b ≤ s := by rw [div_le_iff₀ hEy]; exact hs1
  have hs2' : s ≤ (1 + τ) * A / b := by rw [le_div_iff₀ hEy]; exact hs2
  have h1θ : 0 ≤ 1 - θ := by linarith
  have hch : 0 < (1 - θ) * a + θ * b := by nlinarith
  have hd2 : 0 ≤ 1 - d ^ 2 / 2 := by nlinarith
  have hEz : 0 ≤ Ez := le_trans (mul_nonneg hd2 hch.le) c2
  -- the product of the two chords
  have hprod : ((1 - θ) / a + θ / b) * ((1 - θ) * a + θ * b) = 1 + θ * (1 - θ) * ((a - b) ^ 2 / (a * b)) := by
    field_simp; ring
  have hab : (a - b) ^ 2 / (a * b) ≤ (d * (1 + d)) ^ 2 := by
    rw [div_le_iff₀ (by positivity)]
    have h3 : a - b ≤ d * (1 + d) * b := by linarith
    have h4 : (a - b) ^ 2 ≤ (d * (1 + d) * b) ^ 2 := pow_le_pow_left₀ (by linarith) h3 2
    refine h4.trans ?_
    rw [mul_pow]
    have : b ^ 2 ≤ a * b := by nlinarith
    gcongr
  have hab0 : 0 ≤ (a - b) ^ 2 / (a * b) := by positivity
  have hθ : θ * (1 - θ) ≤ 1 / 4 := by nlinarith [sq_nonneg (θ - 1 / 2)]
  have hθ0 : 0 ≤ θ * (1 - θ) := mul_nonneg h0 h1θ
  constructor
  · have h3 : (1 - τ) * A * ((1 - θ) / a + θ / b) ≤ (1 - θ) * r + θ * s := by
      have e : (1 - τ) * A * ((1 - θ) / a + θ / b) =
        (1 - θ) * ((1 - τ) * A / a) + θ * ((1 - τ) * A / b) := by ring
      rw [e]; gcongr
    have hpos : 0 ≤ (1 - τ) * A * ((1 - θ) / a + θ / b) := by
      have : 0 ≤ 1 - τ := by linarith
      positivity
    calc (1 - τ - d ^ 2 / 2) * A ≤ (1 - τ) * A * (1 - d ^ 2 / 2) := by
          have : 0 ≤ A * τ * d ^ 2 := by positivity
          nlinarith
      _ ≤ (1 - τ) * A * (1 - d ^ 2 / 2) * (((1 - θ) / a + θ / b) * ((1 - θ) * a + θ * b)) := by
          rw [hprod]
          have h4 : 0 ≤ (1 - τ) * A * (1 - d ^ 2 / 2) := by
            have : 0 ≤ 1 - τ := by linarith
            positivity
          have h5 : 0 ≤ θ * (1 - θ) * ((a - b) ^ 2 / (a * b)) := mul_nonneg hθ0 hab0
          nlinarith
      _ = (1 - τ) * A * ((1 - θ) / a + θ / b) * ((1 - d ^ 2 / 2) * ((1 - θ) * a + θ * b)) := by ring
      _ ≤ ((1 - θ) * r + θ * s) * Ez := by
          apply mul_le_mul h3 c2 (mul_nonneg hd2 hch.le) (hpos.trans h3)
  · have h3 : (1 - θ) * r + θ * s ≤ (1 + τ) * A * ((1 - θ) / a + θ / b) := by
      have e : (1 + τ) * A * ((1 - θ) / a + θ / b) =
        (1 - θ) * ((1 + τ) * A / a) + θ * ((1 + τ) * A / b) := by ring
      rw [e]; gcongr
    have hpos : 0 ≤ (1 + τ) * A * ((1 - θ) / a + θ / b) := by positivity
    calc ((1 - θ) * r + θ * s) * Ez ≤ (1 + τ) * A * ((1 - θ) / a + θ / b) * ((1 - θ) * a + θ * b) := by
          apply mul_le_mul h3 c1 hEz hpos
      _ = (1 + τ) * A * (1 + θ * (1 - θ) * ((a - b) ^ 2 / (a * b))) := by rw [← hprod]; ring
      _ ≤ (1 + τ) * A * (1 + 1 / 4 * (d * (1 + d)) ^ 2) := by gcongr
      _ ≤ (1 + τ + d ^ 2 / 2) * A := by
          have h6 := interpolate_last hd0 hd hτ'
          calc _ = (1 + τ) * (1 + 1 / 4 * (d * (1 + d)) ^ 2) * A := by ring
            _ ≤ _ := by gcongr

/-- If the products `r E` are near `A` at `x` and at `y`, they are in between for interpolated `r`. -/
theorem interpolate (h0 : 0 ≤ θ) (h1 : θ ≤ 1) (hxy : x ≤ y) (hd : y - x ≤ 1 / 16) {r s A τ : ℝ}
    (hA : 0 < A) (hτ0 : 0 ≤ τ) (hτ : τ ≤ 0.12)
    (hr1 : (1 - τ) * A ≤ r * E x) (hr2 : r * E x ≤ (1 + τ) * A)
    (hs1 : (1 - τ) * A ≤ s * E y) (hs2 : s * E y ≤ (1 + τ) * A) :
    (1 - τ - (y - x) ^ 2 / 2) * A ≤ ((1 - θ) * r + θ * s) * E ((1 - θ) * x + θ * y) ∧
      ((1 - θ) * r + θ * s) * E ((1 - θ) * x + θ * y) ≤ (1 + τ + (y - x) ^ 2 / 2) * A := by
  have c1 := E_convex (x := x) (y := y) h0 h1
  have c2 := E_chord h0 h1 hxy
  have c3 := E_exp hxy
  have c4 := E_anti hxy
  have hEx := E_pos x
  have hEy := E_pos y
  have hexp : exp (y - x) ≤ 1 + (y - x) * (1 + (y - x)) := by
    have h := Real.abs_exp_sub_one_sub_id_le (x := y - x) (by rw [abs_le]; constructor <;> linarith)
    have := (abs_le.1 h).2
    nlinarith
  have hd0 : 0 ≤ y - x := by linarith
  exact interpolate_arith h0 h1 hd0 hd hA hτ0 hτ hr1 hr2 hs1 hs2 hEx hEy c1 c2
    (c3.trans (mul_le_mul_of_nonneg_right hexp hEy.le)) c4

end

end HLL.Exps
