import Mathlib.Analysis.SpecialFunctions.Exp
import Mathlib.Analysis.Complex.Exponential
import Mathlib.Algebra.BigOperators.Intervals
import Mathlib.Tactic.Linarith
import Mathlib.Tactic.NormNum
import Mathlib.Tactic.FieldSimp

/-!
# The sums `∑ g(λ 2^-k)` with `g(u) = u e^-u`

The mean of the harmonic sum is governed by such sums.  They hardly depend on `λ`: summed over all
integers `k` the value oscillates around `1/ln 2 = 1.44269…` with an amplitude of about `10^-5`.  Here
the bounds `1.4424` and `1.443` are proved by evaluating the sum on a grid of 2048 points between 1 and
2, in integer arithmetic with error bounds.
-/

namespace HLL.Osc
open Real Finset

/-- The summand. -/
noncomputable def g (u : ℝ) : ℝ := u * exp (-u)

theorem g_nonneg {u : ℝ} (h : 0 ≤ u) : 0 ≤ g u := mul_nonneg h (exp_pos _).le

theorem g_le {u : ℝ} (h : 0 ≤ u) : g u ≤ u :=
  mul_le_of_le_one_right h (exp_le_one_iff.2 (by linarith))

theorem g_ge {u : ℝ} (h : 0 ≤ u) : u - u ^ 2 ≤ g u := by
  have := add_one_le_exp (-u)
  rw [g]; nlinarith

theorem g_inc {x y : ℝ} (h0 : 0 ≤ x) (h : x ≤ y) (h1 : y ≤ 1) : g x ≤ g y := by
  have e : exp (-y) = exp (-x) * exp (x - y) := by rw [← exp_add]; congr 1; ring
  have h2 := add_one_le_exp (x - y)
  have h3 := exp_pos (-x)
  have : x ≤ y * exp (x - y) := by nlinarith
  rw [g, g, e]
  nlinarith

theorem g_dec {x y : ℝ} (h1 : 1 ≤ x) (h : x ≤ y) : g y ≤ g x := by
  have e : exp (-x) = exp (-y) * exp (y - x) := by rw [← exp_add]; congr 1; ring
  have h2 := add_one_le_exp (y - x)
  have h3 := exp_pos (-y)
  have : y ≤ x * exp (y - x) := by nlinarith
  rw [g, g, e]
  nlinarith

/-- The summand for second moments. -/
noncomputable def q (u : ℝ) : ℝ := u ^ 2 * exp (-u)

theorem q_eq (u : ℝ) : q u = 4 * g (u / 2) ^ 2 := by
  rw [q, g, mul_pow, ← exp_nat_mul]
  have : (2 : ℕ) * -(u / 2) = -u := by push_cast; ring
  rw [this]; ring

theorem q_nonneg (u : ℝ) : 0 ≤ q u := mul_nonneg (sq_nonneg u) (exp_pos _).le

theorem q_inc {x y : ℝ} (h0 : 0 ≤ x) (h : x ≤ y) (h1 : y ≤ 2) : q x ≤ q y := by
  rw [q_eq, q_eq]
  have := g_inc (x := x / 2) (y := y / 2) (by linarith) (by linarith) (by linarith)
  have := g_nonneg (u := x / 2) (by linarith)
  gcongr

theorem q_dec {x y : ℝ} (h1 : 2 ≤ x) (h : x ≤ y) : q y ≤ q x := by
  rw [q_eq, q_eq]
  have := g_dec (x := x / 2) (y := y / 2) (by linarith) (by linarith)
  have := g_nonneg (u := y / 2) (by linarith)
  gcongr

theorem q_le (u : ℝ) (h : 0 ≤ u) : q u ≤ u ^ 2 :=
  mul_le_of_le_one_right (sq_nonneg u) (exp_le_one_iff.2 (by linarith))

theorem q_ge (u : ℝ) : u ^ 2 - u ^ 3 ≤ q u := by
  have := add_one_le_exp (-u)
  rw [q]; nlinarith [sq_nonneg u]

/-! ## Evaluation on the grid -/

/-- Lower bound for `2^64 exp (-a/2^22)`. -/
def lo0 (a : Nat) : Nat := (2 ^ 64 + a * a * 2 ^ 19) - (a * 2 ^ 42 + a * a * a / 24 + 1 + 2 ^ 20)

/-- Upper bound for `2^64 exp (-a/2^22)`. -/
def hi0 (a : Nat) : Nat := (2 ^ 64 + a * a * 2 ^ 19) - (a * 2 ^ 42 + a * a * a / 24) + 2 ^ 20

theorem exp_start {a : Nat} (ha : a ≤ 4096) :
    (lo0 a : ℝ) / 2 ^ 64 ≤ exp (-(a / 2 ^ 22)) ∧ exp (-(a / 2 ^ 22)) ≤ (hi0 a : ℝ) / 2 ^ 64 := by
  have haR : (a : ℝ) ≤ 4096 := by exact_mod_cast ha
  have ha0 : (0 : ℝ) ≤ a := Nat.cast_nonneg a
  have hb := Real.exp_bound (x := -(a / 2 ^ 22 : ℝ)) (n := 4) (by
    rw [abs_neg, abs_of_nonneg (by positivity)]
    rw [div_le_one (by positivity)]; linarith) (by norm_num)
  rw [abs_neg, abs_of_nonneg (a := (a / 2 ^ 22 : ℝ)) (by positivity)] at hb
  have h4 : ((a : ℝ) / 2 ^ 22) ^ 4 ≤ 1 / 2 ^ 40 := by
    calc ((a : ℝ) / 2 ^ 22) ^ 4 ≤ (4096 / 2 ^ 22) ^ 4 := by gcongr
      _ = 1 / 2 ^ 40 := by norm_num
  have hb' : |exp (-(a / 2 ^ 22 : ℝ)) - (1 - a / 2 ^ 22 + (a / 2 ^ 22) ^ 2 / 2 - (a / 2 ^ 22) ^ 3 / 6)| ≤
      2 ^ 20 / 2 ^ 64 := by
    have e : ∑ m ∈ range 4, (-(a / 2 ^ 22 : ℝ)) ^ m / m.factorial =
        1 - a / 2 ^ 22 + (a / 2 ^ 22) ^ 2 / 2 - (a / 2 ^ 22) ^ 3 / 6 := by
      simp [sum_range_succ, Nat.factorial]; ring
    rw [e] at hb
    refine hb.trans ?_
    have : ((Nat.succ 4 : ℕ) : ℝ) / ((Nat.factorial 4 : ℕ) * (4 : ℕ)) = 5 / 96 := by
      norm_num [Nat.factorial]
    rw [this]
    calc ((a : ℝ) / 2 ^ 22) ^ 4 * (5 / 96) ≤ 1 / 2 ^ 40 * (5 / 96) := by gcongr
      _ ≤ 2 ^ 20 / 2 ^ 64 := by norm_num
  rw [abs_le] at hb'
  obtain ⟨b1, b2⟩ := hb'
  have hdiv : ((a * a * a / 24 : ℕ) : ℝ) ≤ a ^ 3 / 24 ∧ (a : ℝ) ^ 3 / 24 ≤ ((a * a * a / 24 : ℕ) : ℝ) + 1 := by
    constructor
    · refine Nat.cast_div_le.trans (le_of_eq ?_); push_cast; ring
    · have := Nat.lt_div_mul_add (a := a * a * a) (b := 24) (by norm_num)
      have h : ((a * a * a : ℕ) : ℝ) < ((a * a * a / 24 * 24 + 24 : ℕ) : ℝ) := by exact_mod_cast this
      push_cast at h ⊢
      linarith
  have hle : a * 2 ^ 42 + a * a * a / 24 + 1 + 2 ^ 20 ≤ 2 ^ 64 + a * a * 2 ^ 19 := by
    have h1 : a * a * a / 24 ≤ 4096 * 4096 * 4096 / 24 :=
      Nat.div_le_div_right (Nat.mul_le_mul (Nat.mul_le_mul ha ha) ha)
    have : 0 ≤ a * a * 2 ^ 19 := Nat.zero_le _
    omega
  have e2 : (1 : ℝ) - a / 2 ^ 22 + (a / 2 ^ 22) ^ 2 / 2 - (a / 2 ^ 22) ^ 3 / 6 =
      (2 ^ 64 + a * a * 2 ^ 19 - (a * 2 ^ 42 + a ^ 3 / 24)) / 2 ^ 64 := by
    ring
  rw [e2] at b1 b2
  have c1 : (lo0 a : ℝ) = 2 ^ 64 + a * a * 2 ^ 19 - (a * 2 ^ 42 + (a * a * a / 24 : ℕ) + 1 + 2 ^ 20) := by
    unfold lo0
    rw [Nat.cast_sub hle]
    generalize a * a * a / 24 = d
    push_cast
    norm_num
  have c2 : (hi0 a : ℝ) = 2 ^ 64 + a * a * 2 ^ 19 - (a * 2 ^ 42 + (a * a * a / 24 : ℕ)) + 2 ^ 20 := by
    have hle2 : a * 2 ^ 42 + a * a * a / 24 ≤ 2 ^ 64 + a * a * 2 ^ 19 :=
      le_trans (Nat.le_add_right _ 1) (le_trans (Nat.le_add_right _ (2 ^ 20)) hle)
    unfold hi0
    rw [Nat.cast_add, Nat.cast_sub hle2]
    generalize a * a * a / 24 = d
    push_cast
    norm_num
  rw [c1, c2, div_le_iff₀ (by positivity), le_div_iff₀ (by positivity)]
  clear c1 c2 hle h4 hb
  rw [sub_le_iff_le_add, ← add_div, le_div_iff₀ (by positivity)] at b2
  rw [neg_le_sub_iff_le_add, div_le_iff₀ (by positivity), add_mul,
    div_mul_cancel₀ _ (by positivity)] at b1
  constructor
  · linarith [hdiv.2]
  · linarith [hdiv.1]

/-- Repeated squaring: adds `wt x + b wt x^2 + b^2 wt x^4 + …` to `s`, with numbers scaled by
`2^64`.  Returns the sum and the last power.  `up` is 0 for lower and 1 for upper bounds. -/
def acc (up b : Nat) : (steps x wt s : Nat) → Nat × Nat
  | 0, x, _, s => (s, x)
  | k + 1, x, wt, s => acc up b k (x * x / 2 ^ 64 + up) (b * wt) (s + wt * x)

theorem acc_lo (b : Nat) : ∀ (k x wt s : Nat) (u : ℝ), (x : ℝ) / 2 ^ 64 ≤ exp (-u) →
    ((acc 0 b k x wt s).1 : ℝ) / 2 ^ 64 ≤
      s / 2 ^ 64 + ∑ j ∈ range k, wt * b ^ j * exp (-(2 ^ j * u)) ∧
    ((acc 0 b k x wt s).2 : ℝ) / 2 ^ 64 ≤ exp (-(2 ^ k * u))
  | 0, x, wt, s, u, h => by simpa [acc] using h
  | k + 1, x, wt, s, u, h => by
    have hx : ((x * x / 2 ^ 64 + 0 : ℕ) : ℝ) / 2 ^ 64 ≤ exp (-(2 * u)) := by
      have e : exp (-(2 * u)) = exp (-u) * exp (-u) := by rw [← exp_add]; congr 1; ring
      rw [add_zero, e]
      have h1 : ((x * x / 2 ^ 64 : ℕ) : ℝ) ≤ (x * x : ℝ) / 2 ^ 64 := by
        refine Nat.cast_div_le.trans (le_of_eq ?_); push_cast; norm_num
      have h0 : (0 : ℝ) ≤ x / 2 ^ 64 := by positivity
      calc ((x * x / 2 ^ 64 : ℕ) : ℝ) / (2 ^ 64 : ℝ) ≤ (x * x : ℝ) / 2 ^ 64 / 2 ^ 64 := by gcongr
        _ = ((x : ℝ) / 2 ^ 64) * (x / 2 ^ 64) := by ring
        _ ≤ _ := by gcongr
    obtain ⟨i1, i2⟩ := acc_lo b k (x * x / 2 ^ 64 + 0) (b * wt) (s + wt * x) (2 * u) hx
    rw [acc]
    constructor
    · refine i1.trans ?_
      rw [sum_range_succ']
      have hs : ∑ j ∈ range k, ((b * wt : ℕ) : ℝ) * b ^ j * exp (-(2 ^ j * (2 * u))) =
          ∑ j ∈ range k, (wt : ℝ) * b ^ (j + 1) * exp (-(2 ^ (j + 1) * u)) := by
        refine sum_congr rfl fun j _ => ?_
        rw [pow_succ, pow_succ]
        push_cast
        rw [show (2 : ℝ) ^ j * (2 * u) = 2 ^ j * 2 * u by ring]
        ring
      rw [hs]
      have hw : (0 : ℝ) ≤ wt := Nat.cast_nonneg _
      have : ((s + wt * x : ℕ) : ℝ) / 2 ^ 64 = s / 2 ^ 64 + wt * (x / 2 ^ 64) := by
        push_cast; ring
      rw [this]
      simp only [pow_zero, mul_one, one_mul]
      have := mul_le_mul_of_nonneg_left h hw
      linarith
    · refine i2.trans (le_of_eq ?_)
      rw [pow_succ]; congr 1; ring

theorem acc_hi (b : Nat) : ∀ (k x wt s : Nat) (u : ℝ), exp (-u) ≤ (x : ℝ) / 2 ^ 64 →
    s / 2 ^ 64 + ∑ j ∈ range k, wt * b ^ j * exp (-(2 ^ j * u)) ≤
      ((acc 1 b k x wt s).1 : ℝ) / 2 ^ 64 ∧
    exp (-(2 ^ k * u)) ≤ ((acc 1 b k x wt s).2 : ℝ) / 2 ^ 64
  | 0, x, wt, s, u, h => by simpa [acc] using h
  | k + 1, x, wt, s, u, h => by
    have hx : exp (-(2 * u)) ≤ ((x * x / 2 ^ 64 + 1 : ℕ) : ℝ) / 2 ^ 64 := by
      have e : exp (-(2 * u)) = exp (-u) * exp (-u) := by rw [← exp_add]; congr 1; ring
      rw [e]
      have h1 : (x * x : ℝ) / 2 ^ 64 ≤ ((x * x / 2 ^ 64 + 1 : ℕ) : ℝ) := by
        rw [div_le_iff₀ (by positivity)]
        have := (Nat.lt_mul_of_div_lt (Nat.lt_succ_self (x * x / 2 ^ 64)) (by norm_num)).le
        have h2 : ((x * x : ℕ) : ℝ) ≤ (((x * x / 2 ^ 64).succ * 2 ^ 64 : ℕ) : ℝ) := by
          exact_mod_cast this
        rw [Nat.succ_eq_add_one, Nat.cast_mul, Nat.cast_mul] at h2
        have h3 : (((2 : ℕ) ^ 64 : ℕ) : ℝ) = 2 ^ 64 := by norm_num
        rw [h3] at h2
        linarith
      have h0 : (0 : ℝ) ≤ x / 2 ^ 64 := by positivity
      have he := (exp_pos (-u)).le
      calc exp (-u) * exp (-u) ≤ (x / 2 ^ 64) * (x / 2 ^ 64) := by gcongr
        _ = (x * x : ℝ) / 2 ^ 64 / 2 ^ 64 := by ring
        _ ≤ _ := by gcongr
    obtain ⟨i1, i2⟩ := acc_hi b k (x * x / 2 ^ 64 + 1) (b * wt) (s + wt * x) (2 * u) hx
    rw [acc]
    constructor
    · refine le_trans ?_ i1
      rw [sum_range_succ']
      have hs : ∑ j ∈ range k, ((b * wt : ℕ) : ℝ) * b ^ j * exp (-(2 ^ j * (2 * u))) =
          ∑ j ∈ range k, (wt : ℝ) * b ^ (j + 1) * exp (-(2 ^ (j + 1) * u)) := by
        refine sum_congr rfl fun j _ => ?_
        rw [pow_succ, pow_succ]
        push_cast
        rw [show (2 : ℝ) ^ j * (2 * u) = 2 ^ j * 2 * u by ring]
        ring
      rw [hs]
      have hw : (0 : ℝ) ≤ wt := Nat.cast_nonneg _
      have : ((s + wt * x : ℕ) : ℝ) / 2 ^ 64 = s / 2 ^ 64 + wt * (x / 2 ^ 64) := by
        push_cast; ring
      rw [this]
      simp only [pow_zero, mul_one, one_mul]
      have := mul_le_mul_of_nonneg_left h hw
      linarith
    · refine le_trans (le_of_eq ?_) i2
      rw [pow_succ]; congr 1; ring

/-- The increasing part of the sum for `g`. -/
noncomputable def inc (ρ : ℝ) : ℝ := ∑ j ∈ range 11, g (2 ^ j * (ρ / 2 ^ 11)) + ρ / 2 ^ 11
/-- The decreasing part of the sum for `g`. -/
noncomputable def dec (ρ : ℝ) : ℝ := ∑ j ∈ range 6, g (2 ^ j * ρ)
/-- The increasing part of the sum for `q`. -/
noncomputable def inc2 (ρ : ℝ) : ℝ := ∑ j ∈ range 12, q (2 ^ j * (ρ / 2 ^ 11)) + (ρ / 2 ^ 11) ^ 2 / 3
/-- The decreasing part of the sum for `q`. -/
noncomputable def dec2 (ρ : ℝ) : ℝ := ∑ j ∈ range 5, q (2 ^ j * (2 * ρ))

theorem inc_mono {x y : ℝ} (h0 : 0 ≤ x) (h : x ≤ y) (h1 : y ≤ 2) : inc x ≤ inc y := by
  have hy : 0 ≤ y := h0.trans h
  refine add_le_add (sum_le_sum fun j hj => g_inc (by positivity) (by gcongr) ?_) (by gcongr)
  rw [mem_range] at hj
  have : (2 : ℝ) ^ j ≤ 2 ^ 10 := pow_le_pow_right₀ (by norm_num) (by omega)
  calc (2 : ℝ) ^ j * (y / 2 ^ 11) ≤ 2 ^ 10 * (2 / 2 ^ 11) := by gcongr
    _ = 1 := by norm_num

theorem dec_anti {x y : ℝ} (h0 : 1 ≤ x) (h : x ≤ y) : dec y ≤ dec x := by
  refine sum_le_sum fun j _ => g_dec ?_ (by gcongr)
  have : (1 : ℝ) ≤ 2 ^ j := one_le_pow₀ (by norm_num)
  nlinarith

theorem inc2_mono {x y : ℝ} (h0 : 0 ≤ x) (h : x ≤ y) (h1 : y ≤ 2) : inc2 x ≤ inc2 y := by
  have hy : 0 ≤ y := h0.trans h
  refine add_le_add (sum_le_sum fun j hj => q_inc (by positivity) (by gcongr) ?_) (by gcongr)
  rw [mem_range] at hj
  have : (2 : ℝ) ^ j ≤ 2 ^ 11 := pow_le_pow_right₀ (by norm_num) (by omega)
  calc (2 : ℝ) ^ j * (y / 2 ^ 11) ≤ 2 ^ 11 * (2 / 2 ^ 11) := by gcongr
    _ = 2 := by norm_num

theorem dec2_anti {x y : ℝ} (h0 : 1 ≤ x) (h : x ≤ y) : dec2 y ≤ dec2 x := by
  refine sum_le_sum fun j _ => q_dec ?_ (by gcongr)
  have : (1 : ℝ) ≤ 2 ^ j := one_le_pow₀ (by norm_num)
  nlinarith

/-- Lower bounds for `2^86 inc` and `2^86 dec` at `a/2^11`. -/
def lows (a : Nat) : Nat × Nat :=
  let r := acc 0 2 11 (lo0 a) 1 0
  (a * (r.1 + 2 ^ 64), a * (acc 0 2 6 r.2 (2 ^ 11) 0).1)

/-- Upper bounds for `2^86 inc` and `2^86 dec` at `a/2^11`. -/
def highs (a : Nat) : Nat × Nat :=
  let r := acc 1 2 11 (hi0 a) 1 0
  (a * (r.1 + 2 ^ 64), a * (acc 1 2 6 r.2 (2 ^ 11) 0).1)

/-- Upper bounds for `3·2^108 inc2` and `3·2^108 dec2` at `a/2^11`. -/
def highs2 (a : Nat) : Nat × Nat :=
  let r := acc 1 4 12 (hi0 a) 1 0
  (a * a * (3 * r.1 + 2 ^ 64), 3 * (a * a) * (acc 1 4 5 r.2 (4 ^ 12) 0).1)

theorem lows_le {a : Nat} (ha : a ≤ 4096) :
    ((lows a).1 : ℝ) / 2 ^ 86 ≤ inc (a / 2 ^ 11) ∧ ((lows a).2 : ℝ) / 2 ^ 86 ≤ dec (a / 2 ^ 11) := by
  obtain ⟨h1, h2⟩ := acc_lo 2 11 (lo0 a) 1 0 (a / 2 ^ 22) (exp_start ha).1
  obtain ⟨h3, -⟩ := acc_lo 2 6 _ (2 ^ 11) 0 _ h2
  have e : (a : ℝ) / 2 ^ 11 / 2 ^ 11 = a / 2 ^ 22 := by ring
  have ha0 : (0 : ℝ) ≤ a / 2 ^ 22 := by positivity
  constructor
  · have : ((lows a).1 : ℝ) / 2 ^ 86 =
        a / 2 ^ 22 * (((acc 0 2 11 (lo0 a) 1 0).1 : ℝ) / 2 ^ 64 + 1) := by
      simp only [lows]; push_cast; ring
    rw [this, inc, e]
    refine (mul_le_mul_of_nonneg_left (add_le_add h1 le_rfl) ha0).trans (le_of_eq ?_)
    rw [mul_add, mul_one, mul_add, mul_sum]
    simp only [Nat.cast_zero, zero_div, mul_zero, zero_add, Nat.cast_one, one_mul, g]
    congr 1
    refine sum_congr rfl fun j _ => ?_
    push_cast; ring
  · have : ((lows a).2 : ℝ) / 2 ^ 86 = a / 2 ^ 22 *
        (((acc 0 2 6 (acc 0 2 11 (lo0 a) 1 0).2 (2 ^ 11) 0).1 : ℝ) / 2 ^ 64) := by
      simp only [lows]; push_cast; ring
    rw [this, dec]
    refine (mul_le_mul_of_nonneg_left h3 ha0).trans (le_of_eq ?_)
    rw [mul_add, mul_sum]
    simp only [Nat.cast_zero, zero_div, mul_zero, zero_add, g]
    refine sum_congr rfl fun j _ => ?_
    rw [show (2 : ℝ) ^ 11 * (a / 2 ^ 22) = a / 2 ^ 11 by ring]
    push_cast; ring

theorem highs_ge {a : Nat} (ha : a ≤ 4096) :
    inc (a / 2 ^ 11) ≤ ((highs a).1 : ℝ) / 2 ^ 86 ∧ dec (a / 2 ^ 11) ≤ ((highs a).2 : ℝ) / 2 ^ 86 := by
  obtain ⟨h1, h2⟩ := acc_hi 2 11 (hi0 a) 1 0 (a / 2 ^ 22) (exp_start ha).2
  obtain ⟨h3, -⟩ := acc_hi 2 6 _ (2 ^ 11) 0 _ h2
  have e : (a : ℝ) / 2 ^ 11 / 2 ^ 11 = a / 2 ^ 22 := by ring
  have ha0 : (0 : ℝ) ≤ a / 2 ^ 22 := by positivity
  constructor
  · have : ((highs a).1 : ℝ) / 2 ^ 86 =
        a / 2 ^ 22 * (((acc 1 2 11 (hi0 a) 1 0).1 : ℝ) / 2 ^ 64 + 1) := by
      simp only [highs]; push_cast; ring
    rw [this, inc, e]
    refine le_trans (le_of_eq ?_) (mul_le_mul_of_nonneg_left (add_le_add h1 le_rfl) ha0)
    rw [mul_add, mul_one, mul_add, mul_sum]
    simp only [Nat.cast_zero, zero_div, mul_zero, zero_add, Nat.cast_one, one_mul, g]
    congr 1
    refine sum_congr rfl fun j _ => ?_
    push_cast; ring
  · have : ((highs a).2 : ℝ) / 2 ^ 86 = a / 2 ^ 22 *
        (((acc 1 2 6 (acc 1 2 11 (hi0 a) 1 0).2 (2 ^ 11) 0).1 : ℝ) / 2 ^ 64) := by
      simp only [highs]; push_cast; ring
    rw [this, dec]
    refine le_trans (le_of_eq ?_) (mul_le_mul_of_nonneg_left h3 ha0)
    rw [mul_add, mul_sum]
    simp only [Nat.cast_zero, zero_div, mul_zero, zero_add, g]
    refine sum_congr rfl fun j _ => ?_
    rw [show (2 : ℝ) ^ 11 * (a / 2 ^ 22) = a / 2 ^ 11 by ring]
    push_cast; ring

theorem highs2_ge {a : Nat} (ha : a ≤ 4096) :
    inc2 (a / 2 ^ 11) ≤ ((highs2 a).1 : ℝ) / (3 * 2 ^ 108) ∧
      dec2 (a / 2 ^ 11) ≤ ((highs2 a).2 : ℝ) / (3 * 2 ^ 108) := by
  obtain ⟨h1, h2⟩ := acc_hi 4 12 (hi0 a) 1 0 (a / 2 ^ 22) (exp_start ha).2
  obtain ⟨h3, -⟩ := acc_hi 4 5 _ (4 ^ 12) 0 _ h2
  have e : (a : ℝ) / 2 ^ 11 / 2 ^ 11 = a / 2 ^ 22 := by ring
  have ha0 : (0 : ℝ) ≤ (a / 2 ^ 22) ^ 2 := by positivity
  have h4 : ∀ j : ℕ, (4 : ℝ) ^ j = (2 ^ j) ^ 2 := fun j => by rw [← pow_mul, mul_comm, pow_mul]; norm_num
  constructor
  · have : ((highs2 a).1 : ℝ) / (3 * 2 ^ 108) =
        (a / 2 ^ 22) ^ 2 * (((acc 1 4 12 (hi0 a) 1 0).1 : ℝ) / 2 ^ 64 + 1 / 3) := by
      simp only [highs2]; push_cast; ring
    rw [this, inc2, e]
    refine le_trans (le_of_eq ?_) (mul_le_mul_of_nonneg_left (add_le_add h1 le_rfl) ha0)
    rw [mul_add, mul_add, mul_sum, mul_one_div]
    simp only [Nat.cast_zero, zero_div, mul_zero, zero_add, Nat.cast_one, one_mul, q]
    congr 1
    refine sum_congr rfl fun j _ => ?_
    push_cast; rw [h4]; ring
  · have : ((highs2 a).2 : ℝ) / (3 * 2 ^ 108) = (a / 2 ^ 22) ^ 2 *
        (((acc 1 4 5 (acc 1 4 12 (hi0 a) 1 0).2 (4 ^ 12) 0).1 : ℝ) / 2 ^ 64) := by
      simp only [highs2]; push_cast; ring
    rw [this, dec2]
    refine le_trans (le_of_eq ?_) (mul_le_mul_of_nonneg_left h3 ha0)
    rw [mul_add, mul_sum]
    simp only [Nat.cast_zero, zero_div, mul_zero, zero_add, q]
    refine sum_congr rfl fun j _ => ?_
    rw [show (2 : ℝ) ^ 12 * (a / 2 ^ 22) = 2 * (a / 2 ^ 11) by ring]
    push_cast; rw [h4]; ring

/-- One cell of the grid. -/
def cell (a : Nat) : Bool :=
  decide ((highs (a + 1)).1 + (highs a).2 ≤ 14430 * 2 ^ 86 / 10000) &&
  decide (14424 * 2 ^ 86 / 10000 + 1 ≤ (lows a).1 + (lows (a + 1)).2) &&
  decide ((highs2 (a + 1)).1 + (highs2 a).2 ≤ 14433 * (3 * 2 ^ 108) / 10000)

set_option maxRecDepth 100000 in
theorem cells : ((List.range 2048).all fun i => cell (2048 + i)) = true := by decide +kernel

/-- **The bounds.** -/
theorem bounds {ρ : ℝ} (h1 : 1 ≤ ρ) (h2 : ρ ≤ 2) :
    1.4424 ≤ inc ρ + dec ρ ∧ inc ρ + dec ρ ≤ 1.4430 ∧ inc2 ρ + dec2 ρ ≤ 1.4433 := by
  obtain ⟨i, hi, hl, hr⟩ : ∃ i < 2048, ((2048 + i : ℕ) : ℝ) / 2 ^ 11 ≤ ρ ∧
      ρ ≤ ((2048 + i + 1 : ℕ) : ℝ) / 2 ^ 11 := by
    rcases eq_or_lt_of_le h2 with rfl | h2
    · exact ⟨2047, by norm_num, by norm_num, by norm_num⟩
    · have h0 : 0 ≤ (ρ - 1) * 2048 := by nlinarith
      refine ⟨⌊(ρ - 1) * 2048⌋₊, ?_, ?_, ?_⟩
      · rw [Nat.floor_lt h0]; push_cast; linarith
      · have := Nat.floor_le h0
        rw [div_le_iff₀ (by positivity)]; push_cast; linarith
      · have := Nat.lt_floor_add_one ((ρ - 1) * 2048)
        rw [le_div_iff₀ (by positivity)]; push_cast; linarith
  have hc := List.all_eq_true.1 cells i (List.mem_range.2 hi)
  generalize ha : 2048 + i = a at *
  have ha0 : (1 : ℝ) ≤ (a : ℝ) / 2 ^ 11 := by
    rw [le_div_iff₀ (by positivity), ← ha]; push_cast; linarith [Nat.cast_nonneg (α := ℝ) i]
  have ha2 : ((a + 1 : ℕ) : ℝ) / 2 ^ 11 ≤ 2 := by
    rw [div_le_iff₀ (by positivity)]
    have : ((a + 1 : ℕ) : ℝ) ≤ (4096 : ℕ) := by exact_mod_cast (by omega : a + 1 ≤ 4096)
    push_cast at this ⊢; linarith
  simp only [cell, Bool.and_eq_true, decide_eq_true_eq] at hc
  obtain ⟨⟨c1, c2⟩, c3⟩ := hc
  obtain ⟨l1, -⟩ := lows_le (a := a) (by omega)
  obtain ⟨-, l2⟩ := lows_le (a := a + 1) (by omega)
  obtain ⟨-, u2⟩ := highs_ge (a := a) (by omega)
  obtain ⟨u1, -⟩ := highs_ge (a := a + 1) (by omega)
  obtain ⟨-, v2⟩ := highs2_ge (a := a) (by omega)
  obtain ⟨v1, -⟩ := highs2_ge (a := a + 1) (by omega)
  have m1 := inc_mono (by linarith) hl h2
  have m2 := inc_mono (by linarith) hr ha2
  have m3 := dec_anti ha0 hl
  have m4 := dec_anti h1 hr
  have m5 := inc2_mono (by linarith) hr ha2
  have m6 := dec2_anti ha0 hl
  refine ⟨?_, ?_, ?_⟩
  · have h : ((14424 * 2 ^ 86 / 10000 + 1 : ℕ) : ℝ) ≤ (((lows a).1 + (lows (a + 1)).2 : ℕ) : ℝ) := by
      exact_mod_cast c2
    rw [Nat.cast_add (lows a).1] at h
    have hd : (1.4424 : ℝ) * 2 ^ 86 ≤ ((14424 * 2 ^ 86 / 10000 + 1 : ℕ) : ℝ) := by norm_num
    have : (1.4424 : ℝ) ≤ (lows a).1 / 2 ^ 86 + (lows (a + 1)).2 / 2 ^ 86 := by
      rw [← add_div, le_div_iff₀ (by positivity)]; linarith
    linarith
  · have h : (((highs (a + 1)).1 + (highs a).2 : ℕ) : ℝ) ≤ ((14430 * 2 ^ 86 / 10000 : ℕ) : ℝ) := by
      exact_mod_cast c1
    rw [Nat.cast_add (highs (a + 1)).1] at h
    have hd : ((14430 * 2 ^ 86 / 10000 : ℕ) : ℝ) ≤ (1.4430 : ℝ) * 2 ^ 86 := by norm_num
    have : ((highs (a + 1)).1 : ℝ) / 2 ^ 86 + (highs a).2 / 2 ^ 86 ≤ 1.4430 := by
      rw [← add_div, div_le_iff₀ (by positivity)]; linarith
    linarith
  · have h : (((highs2 (a + 1)).1 + (highs2 a).2 : ℕ) : ℝ) ≤
        ((14433 * (3 * 2 ^ 108) / 10000 : ℕ) : ℝ) := by
      exact_mod_cast c3
    rw [Nat.cast_add (highs2 (a + 1)).1] at h
    have hd : ((14433 * (3 * 2 ^ 108) / 10000 : ℕ) : ℝ) ≤ (1.4433 : ℝ) * (3 * 2 ^ 108) := by norm_num
    have : ((highs2 (a + 1)).1 : ℝ) / (3 * 2 ^ 108) + (highs2 a).2 / (3 * 2 ^ 108) ≤ 1.4433 := by
      rw [← add_div, div_le_iff₀ (by positivity)]; linarith
    linarith

end HLL.Osc
