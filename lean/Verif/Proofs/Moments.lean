import Verif.Proofs.Ranks
import Verif.Proofs.OscSums

/-! # Numerical bounds on the mean and variance of the harmonic sum -/

namespace HLL
open Spec Osc Real

theorem pow_le_exp {x : ℝ} (h1 : x ≤ 1) (n : Nat) : (1 - x) ^ n ≤ exp (-(n * x)) := by
  have h := pow_le_pow_left₀ (by linarith) (one_sub_le_exp_neg x) n
  rwa [← exp_nat_mul, mul_neg] at h

theorem exp_le_pow {x : ℝ} (h0 : 0 ≤ x) (h1 : x ≤ 1) (n : Nat) :
    exp (-(n * x)) * (1 - n * x ^ 2) ≤ (1 - x) ^ n := by
  have h2 : 1 - x ^ 2 ≤ (1 - x) * exp x := by
    have := add_one_le_exp x
    nlinarith
  have h3 : (0 : ℝ) ≤ 1 - x ^ 2 := by nlinarith
  have h4 := one_add_mul_le_pow (a := -x ^ 2) (by nlinarith) n
  have h5 : (1 - x ^ 2) ^ n ≤ (1 - x) ^ n * exp (n * x) := by
    have := pow_le_pow_left₀ h3 h2 n
    rwa [mul_pow, ← exp_nat_mul] at this
  have e : exp (-(n * x)) * exp (n * x) = 1 := by rw [← exp_add]; simp
  have hp := exp_pos (-(n * x))
  calc exp (-(n * x)) * (1 - n * x ^ 2) ≤ exp (-(n * x)) * ((1 - x) ^ n * exp (n * x)) := by
        gcongr
        refine le_trans ?_ h5
        refine le_trans (le_of_eq ?_) (h4.trans (le_of_eq ?_))
        · ring
        · congr 1
    _ = (1 - x) ^ n * (exp (-(n * x)) * exp (n * x)) := by ring
    _ = (1 - x) ^ n := by rw [e, mul_one]

theorem cube_le {v : ℝ} (hv : 0 ≤ v) : v ^ 3 * exp (-v) ≤ 4.34 * g (v / 2) := by
  have h1 : q (v / 2) ≤ q 2 := by
    rcases le_total (v / 2) 2 with h | h
    · exact q_inc (by positivity) h le_rfl
    · exact q_dec le_rfl h
  have h2 : q 2 ≤ 0.542 := by
    have h := exp_one_gt_d9
    have e : exp (-2) = 1 / exp 1 ^ 2 := by
      rw [← exp_nat_mul, exp_neg, one_div]; norm_num
    rw [q, e, mul_one_div, div_le_iff₀ (by positivity)]
    nlinarith
  have e : v ^ 3 * exp (-v) = 8 * q (v / 2) * g (v / 2) := by
    have : exp (-v) = exp (-(v / 2)) * exp (-(v / 2)) := by rw [← exp_add]; congr 1; ring
    rw [q, g, this]; ring
  have h3 := g_nonneg (u := v / 2) (by positivity)
  rw [e]
  nlinarith

theorem half_pow_sub (k : Nat) : (1 / 2 : ℝ) ^ k - (1 / 2) ^ (k + 1) = (1 / 2) ^ k / 2 := by
  rw [pow_succ]; ring

theorem quarter_pow_sub (k : Nat) : (1 / 4 : ℝ) ^ k - (1 / 4) ^ (k + 1) = 3 / 4 * (1 / 4) ^ k := by
  rw [pow_succ]; ring

section
variable {w p n : Nat}

theorem arg_eq (k : Nat) : (n : ℝ) * (1 / 2 ^ (p + k)) = n / 2 ^ p / 2 ^ k := by
  rw [pow_add]; field_simp

theorem arg_le (k : Nat) : (1 : ℝ) / 2 ^ (p + k) ≤ 1 := by
  rw [div_le_one (by positivity)]; exact one_le_pow₀ (by norm_num)

/-- Upper bound on the mean of `2^-M`. -/
theorem moment_half_le (hn : 0 < n) :
    moment w p n (1 / 2) ≤ G (w - p + 1) (n / 2 ^ p) / (2 * (n / 2 ^ p)) := by
  have hn' : (0 : ℝ) < n := by exact_mod_cast hn
  have hl : (0 : ℝ) < n / 2 ^ p := by positivity
  rw [le_div_iff₀ (by positivity), moment, G, add_mul, add_comm, Finset.sum_mul]
  refine add_le_add (Finset.sum_le_sum fun k _ => ?_) (le_of_eq ?_)
  · have h := pow_le_exp (arg_le (p := p) k) n
    rw [arg_eq] at h
    generalize (n : ℝ) / 2 ^ p = l at *
    rw [half_pow_sub, g]
    calc (1 / 2 : ℝ) ^ k / 2 * (1 - 1 / 2 ^ (p + k)) ^ n * (2 * l)
        ≤ (1 / 2 : ℝ) ^ k / 2 * exp (-(l / 2 ^ k)) * (2 * l) := by gcongr
      _ = l / 2 ^ k * exp (-(l / 2 ^ k)) := by rw [one_div, inv_pow]; field_simp
  · rw [one_div, inv_pow]; field_simp

/-- Lower bound on the mean of `2^-M`. -/
theorem moment_half_ge (hn : 0 < n) :
    (G (w - p + 1) (n / 2 ^ p) - 4.34 / n * G (w - p + 1) (n / 2 ^ p)) / (2 * (n / 2 ^ p)) ≤
      moment w p n (1 / 2) := by
  have hn' : (0 : ℝ) < n := by exact_mod_cast hn
  have hl : (0 : ℝ) < n / 2 ^ p := by positivity
  set l := (n : ℝ) / 2 ^ p with hldef
  set R := w - p + 1 with hR
  have hG : ∑ k ∈ Finset.range R, g (l / 2 ^ k / 2) ≤ G R l := by
    refine le_trans ?_ (G_anti (Nat.le_succ R) hl.le)
    have h1 : ∑ k ∈ Finset.range R, g (l / 2 ^ k / 2) = ∑ k ∈ Finset.range R, g (l / 2 ^ (k + 1)) :=
      Finset.sum_congr rfl fun k _ => by rw [pow_succ, div_div]
    have h2 : (0 : ℝ) ≤ 2 * l / 2 ^ (R + 1) := by positivity
    have h3 := g_nonneg (u := l / 2 ^ 0) (by positivity)
    have h4 : G R.succ l = ∑ k ∈ Finset.range R, g (l / 2 ^ (k + 1)) + g (l / 2 ^ 0) +
        2 * l / 2 ^ (R + 1) := by rw [G, Finset.sum_range_succ']
    rw [h1, h4]; linarith
  rw [div_le_iff₀ (by positivity)]
  have key : G R l - 4.34 / n * ∑ k ∈ Finset.range R, g (l / 2 ^ k / 2) ≤
      moment w p n (1 / 2) * (2 * l) := by
    rw [moment, G, add_mul, ← hR, Finset.sum_mul, Finset.mul_sum]
    have hs : ∑ k ∈ Finset.range R, (g (l / 2 ^ k) - 4.34 / n * g (l / 2 ^ k / 2)) ≤
        ∑ k ∈ Finset.range R,
          ((1 / 2 : ℝ) ^ k - (1 / 2) ^ (k + 1)) * (1 - 1 / 2 ^ (p + k)) ^ n * (2 * l) := by
      refine Finset.sum_le_sum fun k _ => ?_
      have h := exp_le_pow (x := 1 / 2 ^ (p + k)) (by positivity) (arg_le (p := p) k) n
      have hx : (n : ℝ) * (1 / 2 ^ (p + k)) ^ 2 = (l / 2 ^ k) ^ 2 / n := by
        rw [hldef, pow_add]; field_simp
      rw [arg_eq, hx, ← hldef] at h
      have hv : 0 ≤ l / 2 ^ k := by positivity
      have hc := cube_le hv
      have e1 : (1 / 2 : ℝ) ^ k / 2 * (1 - 1 / 2 ^ (p + k)) ^ n * (2 * l) =
          l / 2 ^ k * (1 - 1 / 2 ^ (p + k)) ^ n := by rw [one_div, inv_pow]; field_simp
      rw [half_pow_sub, e1]
      refine le_trans ?_ (mul_le_mul_of_nonneg_left h hv)
      generalize l / 2 ^ k = v at *
      have e2 : v * (exp (-v) * (1 - v ^ 2 / n)) = g v - (v ^ 3 * exp (-v)) / n := by
        rw [g]; ring
      rw [e2, div_mul_eq_mul_div]
      gcongr
    rw [Finset.sum_sub_distrib] at hs
    have e3 : (1 / 2 : ℝ) ^ R * (2 * l) = 2 * l / 2 ^ R := by rw [one_div, inv_pow]; field_simp
    rw [e3]
    linarith
  refine le_trans ?_ key
  have : 4.34 / (n : ℝ) * ∑ k ∈ Finset.range R, g (l / 2 ^ k / 2) ≤ 4.34 / n * G R l := by gcongr
  linarith

/-- Upper bound on the mean of `4^-M`. -/
theorem moment_quarter_le (hn : 0 < n) :
    moment w p n (1 / 4) ≤ 3 / 4 * Q (w - p + 1) (n / 2 ^ p) / (n / 2 ^ p) ^ 2 := by
  have hn' : (0 : ℝ) < n := by exact_mod_cast hn
  have hl : (0 : ℝ) < n / 2 ^ p := by positivity
  have h4 : ∀ k : ℕ, (4 : ℝ) ^ k = (2 ^ k) ^ 2 := fun k => by
    rw [← pow_mul, mul_comm, pow_mul]; norm_num
  rw [le_div_iff₀ (by positivity), moment, Q, add_mul, add_comm, Finset.sum_mul, mul_add,
    Finset.mul_sum]
  refine add_le_add (Finset.sum_le_sum fun k _ => ?_) (le_of_eq ?_)
  · have h := pow_le_exp (arg_le (p := p) k) n
    rw [arg_eq] at h
    generalize (n : ℝ) / 2 ^ p = l at *
    rw [quarter_pow_sub, q]
    calc 3 / 4 * (1 / 4 : ℝ) ^ k * (1 - 1 / 2 ^ (p + k)) ^ n * l ^ 2
        ≤ 3 / 4 * (1 / 4 : ℝ) ^ k * exp (-(l / 2 ^ k)) * l ^ 2 := by gcongr
      _ = 3 / 4 * ((l / 2 ^ k) ^ 2 * exp (-(l / 2 ^ k))) := by
        rw [one_div, inv_pow, h4]; field_simp
  · rw [one_div, inv_pow, h4]; field_simp

end

end HLL
