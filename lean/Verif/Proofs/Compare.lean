import Verif.Proofs.Accuracy
import Verif.Proofs.StdError
import Verif.Proofs.Worst
import Verif.Props.Lifetime

/-!
# Small numbers of values: `HyperLogLogPlus` against `HyperLogLogPF`

The mean square error of linear counting with `m` registers is at least the variance of the number of empty
registers; that of the sparse representation is small because it has `2^25` buckets.
-/

namespace HLL

open Spec F64

variable {p n w : Nat} {ln : F64 → F64}

/-! ## Variance of the number of empty registers -/

/-- `a^n - b^n ≥ n (a - b) b^(n-1)` for `0 ≤ b ≤ a`. -/
theorem pow_sub_pow_ge {a b : ℝ} (hb : 0 ≤ b) (hab : b ≤ a) (n : Nat) :
    n * (a - b) * b ^ (n - 1) ≤ a ^ n - b ^ n := by
  induction n with
  | zero => simp
  | succ n ih =>
    rw [Nat.add_sub_cancel]
    have h1 : b ^ n ≤ a ^ n := pow_le_pow_left₀ hb hab n
    have h2 : (n : ℝ) * (a - b) * b ^ n ≤ b * (a ^ n - b ^ n) := by
      rcases Nat.eq_zero_or_pos n with rfl | hn
      · simp
      · have : b ^ n = b * b ^ (n - 1) := by rw [← pow_succ']; congr 1; omega
        calc (n : ℝ) * (a - b) * b ^ n = b * (n * (a - b) * b ^ (n - 1)) := by rw [this]; ring
          _ ≤ _ := mul_le_mul_of_nonneg_left ih hb
    have h3 : 0 ≤ a - b := sub_nonneg.2 hab
    have h4 := mul_le_mul_of_nonneg_left h1 h3
    push_cast
    rw [pow_succ, pow_succ]
    nlinarith

/-- `a^n - b^n ≤ n (a - b) a^(n-1)` for `0 ≤ b ≤ a`. -/
theorem pow_sub_pow_le {a b : ℝ} (hb : 0 ≤ b) (hab : b ≤ a) (n : Nat) :
    a ^ n - b ^ n ≤ n * (a - b) * a ^ (n - 1) := by
  have ha : 0 ≤ a := hb.trans hab
  induction n with
  | zero => simp
  | succ n ih =>
    rw [Nat.add_sub_cancel]
    have h1 : b ^ n ≤ a ^ n := pow_le_pow_left₀ hb hab n
    have h2 : a * (a ^ n - b ^ n) ≤ (n : ℝ) * (a - b) * a ^ n := by
      rcases Nat.eq_zero_or_pos n with rfl | hn
      · simp
      · have : a ^ n = a * a ^ (n - 1) := by rw [← pow_succ']; congr 1; omega
        calc a * (a ^ n - b ^ n) ≤ a * (n * (a - b) * a ^ (n - 1)) := mul_le_mul_of_nonneg_left ih ha
          _ = (n : ℝ) * (a - b) * a ^ n := by rw [this]; ring
    have h3 : 0 ≤ a - b := sub_nonneg.2 hab
    have h4 := mul_le_mul_of_nonneg_left h1 h3
    push_cast
    rw [pow_succ, pow_succ]
    nlinarith

/-- `m (1 - q^n) - n q^(n-1) ≥ n(n-1)/(2m) q^(n-1)`, where `q = 1 - 1/m`. -/
theorem occupied_ge {m : ℝ} (hm : 1 ≤ m) (n : Nat) :
    n * (n - 1) / (2 * m) * (1 - 1 / m) ^ (n - 1) ≤
      m * (1 - (1 - 1 / m) ^ n) - n * (1 - 1 / m) ^ (n - 1) := by
  have hm0 : 0 < m := by linarith
  have hq0 : 0 ≤ 1 - 1 / m := by rw [sub_nonneg, div_le_one hm0]; exact hm
  have hq1 : 1 - 1 / m ≤ 1 := by have : 0 < 1 / m := by positivity
                                 linarith
  induction n with
  | zero => simp
  | succ n ih =>
    rw [Nat.add_sub_cancel]
    rcases Nat.eq_zero_or_pos n with rfl | hn
    · simp; rw [mul_inv_cancel₀ hm0.ne']
    · obtain ⟨k, rfl⟩ : ∃ k, n = k + 1 := ⟨n - 1, by omega⟩
      rw [Nat.add_sub_cancel] at ih
      generalize hq : 1 - 1 / m = q at *
      have hmq : m * q = m - 1 := by rw [← hq]; field_simp
      have e : m * (1 - q ^ (k + 1 + 1)) = m * (1 - q ^ (k + 1)) + q ^ (k + 1) := by
        rw [pow_succ q (k + 1)]; linear_combination (-(q ^ (k + 1))) * hmq
      rw [e]
      have h1 : 0 ≤ q ^ k := pow_nonneg hq0 k
      have h2 : q ^ (k + 1) = q ^ k - q ^ k / m := by rw [pow_succ, ← hq]; ring
      have h3 : q ^ (k + 1) ≤ q ^ k := by rw [pow_succ]; nlinarith
      have hk : (0 : ℝ) ≤ k := Nat.cast_nonneg k
      push_cast at ih ⊢
      have h4 : (k + 1 + 1 : ℝ) * (k + 1 + 1 - 1) / (2 * m) * q ^ (k + 1) =
          (k + 1 : ℝ) * (k + 1 - 1) / (2 * m) * q ^ (k + 1) + (k + 1) / m * q ^ (k + 1) := by
        field_simp; ring
      have h5 : (k + 1 : ℝ) * (k + 1 - 1) / (2 * m) * q ^ (k + 1) ≤
          (k + 1 : ℝ) * (k + 1 - 1) / (2 * m) * q ^ k := by
        refine mul_le_mul_of_nonneg_left h3 ?_
        have : (k + 1 - 1 : ℝ) = k := by ring
        rw [this]; positivity
      have h6 : (k + 1 : ℝ) / m * q ^ (k + 1) ≤ (k + 1) / m * q ^ k :=
        mul_le_mul_of_nonneg_left h3 (by positivity)
      rw [h4]
      have h7 : (k + 1 : ℝ) * q ^ k - (k + 1) * q ^ (k + 1) = (k + 1) / m * q ^ k := by
        rw [h2]; ring
      linarith

/-- The variance of the number of empty buckets is at least `n(n-1)/(2m) (1-1/m)^(2n-1)`. -/
theorem variance_ge {m : ℝ} (hm : 2 ≤ m) (n : Nat) (hn : 1 ≤ n) :
    n * (n - 1) / (2 * m) * (1 - 1 / m) ^ (2 * n - 1) ≤
      m * (1 - 1 / m) ^ n + m * (m - 1) * (1 - 2 / m) ^ n - (m * (1 - 1 / m) ^ n) ^ 2 := by
  have hm0 : 0 < m := by linarith
  have hq0 : 0 ≤ 1 - 1 / m := by rw [sub_nonneg, div_le_one hm0]; linarith
  have hr0 : 0 ≤ 1 - 2 / m := by rw [sub_nonneg, div_le_one hm0]; exact hm
  have hrq : (1 - 1 / m) ^ 2 - (1 - 2 / m) = 1 / m ^ 2 := by field_simp; ring
  have hrq' : 1 - 2 / m ≤ (1 - 1 / m) ^ 2 := by
    have : 0 < 1 / m ^ 2 := by positivity
    linarith
  have h1 := pow_sub_pow_le hr0 hrq' n
  have h2 := occupied_ge (by linarith : 1 ≤ m) n
  rw [hrq] at h1
  obtain ⟨k, rfl⟩ : ∃ k, n = k + 1 := ⟨n - 1, by omega⟩
  rw [Nat.add_sub_cancel] at h1 h2
  rw [show 2 * (k + 1) - 1 = (k + 1) + k by omega, pow_add]
  generalize hq : 1 - 1 / m = q at *
  generalize 1 - 2 / m = r at *
  have hmq : m * q = m - 1 := by rw [← hq]; field_simp
  have hQ : 0 ≤ q ^ (k + 1) := pow_nonneg hq0 _
  have e1 : (q ^ 2) ^ (k + 1) = q ^ (k + 1) * q ^ (k + 1) := by rw [← pow_mul, ← pow_add]; congr 1; ring
  have e2 : (q ^ 2) ^ k = q ^ k * q ^ k := by rw [← pow_mul, ← pow_add]; congr 1; ring
  rw [e1, e2] at h1
  have h3 := mul_le_mul_of_nonneg_left h1 (by nlinarith : 0 ≤ m * (m - 1))
  have h4 := mul_le_mul_of_nonneg_left h2 hQ
  have e3 : m * (m - 1) * (((k + 1 : ℕ) : ℝ) * (1 / m ^ 2) * (q ^ k * q ^ k)) =
      ((k + 1 : ℕ) : ℝ) * q ^ (k + 1) * q ^ k := by
    rw [← hmq, pow_succ]; field_simp; ring
  rw [e3] at h3
  nlinarith

/-- The variance is at most `n (2n-1)/m`. -/
theorem variance_small {m : ℝ} (hm : 2 ≤ m) (n : Nat) (hn : 1 ≤ n) :
    m * (1 - 1 / m) ^ n + m * (m - 1) * (1 - 2 / m) ^ n - (m * (1 - 1 / m) ^ n) ^ 2 ≤
      n * (2 * n - 1) / m := by
  have hm0 : 0 < m := by linarith
  have hq0 : 0 ≤ 1 - 1 / m := by rw [sub_nonneg, div_le_one hm0]; linarith
  have hr0 : 0 ≤ 1 - 2 / m := by rw [sub_nonneg, div_le_one hm0]; exact hm
  have hrq : (1 - 1 / m) ^ 2 - (1 - 2 / m) = 1 / m ^ 2 := by field_simp; ring
  have hrq' : 1 - 2 / m ≤ (1 - 1 / m) ^ 2 := by
    have : 0 < 1 / m ^ 2 := by positivity
    linarith
  have hq1 : 1 - 1 / m ≤ 1 := by have : 0 < 1 / m := by positivity
                                 linarith
  have h1 := pow_sub_pow_ge hr0 hrq' n
  rw [hrq] at h1
  have h2 : 1 - (n : ℝ) * (1 / m) ≤ (1 - 1 / m) ^ n := by
    have := one_add_mul_le_pow (show -2 ≤ -(1 / m) by
      have : 1 / m ≤ 1 := by rw [div_le_one hm0]; linarith
      linarith) n
    rw [← sub_eq_add_neg] at this
    linarith
  have h3 : 1 - ((n - 1 : ℕ) : ℝ) * (2 / m) ≤ (1 - 2 / m) ^ (n - 1) := by
    have := one_add_mul_le_pow (show -2 ≤ -(2 / m) by
      have : 2 / m ≤ 1 := by rw [div_le_one hm0]; linarith
      linarith) (n - 1)
    rw [← sub_eq_add_neg] at this
    linarith
  rw [Nat.cast_sub hn] at h3
  have hQ : 0 ≤ (1 - 1 / m) ^ n := pow_nonneg hq0 _
  have hQ1 : (1 - 1 / m) ^ n ≤ 1 := pow_le_one₀ hq0 hq1
  have hn1 : (1 : ℝ) ≤ n := by exact_mod_cast hn
  have e1 : ((1 - 1 / m) ^ 2) ^ n = (1 - 1 / m) ^ n * (1 - 1 / m) ^ n := by
    rw [← pow_mul, ← pow_add]; congr 1; ring
  rw [e1] at h1
  generalize (1 - 1 / m) ^ n = Q at *
  generalize (1 - 2 / m) ^ n = R at *
  generalize (1 - 2 / m) ^ (n - 1) = T at *
  push_cast at h3
  -- m Q + m (m-1) R - m² Q² ≤ m Q (1 - Q) - (m-1) n T / m
  have h4 := mul_le_mul_of_nonneg_left h1 (by nlinarith : 0 ≤ m * (m - 1))
  have e2 : m * (m - 1) * ((n : ℝ) * (1 / m ^ 2) * T) = (m - 1) / m * n * T := by field_simp
  rw [e2] at h4
  have h5 : m * (1 - Q) ≤ n := by
    have := mul_le_mul_of_nonneg_left h2 hm0.le
    have e3 : m * (1 - (n : ℝ) * (1 / m)) = m - n := by field_simp
    linarith
  have h6 : m * Q * (1 - Q) ≤ n := by nlinarith
  have h7 : (m - 1) / m * n * (1 - (n - 1) * (2 / m)) ≤ (m - 1) / m * n * T :=
    mul_le_mul_of_nonneg_left (by linarith) (by
      have : 0 ≤ (m - 1) / m := div_nonneg (by linarith) hm0.le
      positivity)
  have h8 : (n : ℝ) - (m - 1) / m * n * (1 - (n - 1) * (2 / m)) ≤ n * (2 * n - 1) / m := by
    have e4 : (n : ℝ) * (2 * n - 1) / m - (n - (m - 1) / m * n * (1 - (n - 1) * (2 / m))) =
        n * (n - 1) * 2 / m ^ 2 := by field_simp; ring
    have : 0 ≤ (n : ℝ) * (n - 1) * 2 / m ^ 2 := by
      have : (0 : ℝ) ≤ n - 1 := by linarith
      positivity
    linarith
  nlinarith

/-- The number of empty registers is at most `m - n + n (n-1)/(2m)` on average. -/
theorem bonferroni {m : ℝ} (hm : 1 ≤ m) (n : Nat) :
    m * (1 - 1 / m) ^ n ≤ m - n + n * (n - 1) / (2 * m) := by
  have hm0 : 0 < m := by linarith
  have hq0 : 0 ≤ 1 - 1 / m := by rw [sub_nonneg, div_le_one hm0]; exact hm
  induction n with
  | zero => simp
  | succ n ih =>
    have h1 := mul_le_mul_of_nonneg_left ih hq0
    have e1 : (1 - 1 / m) * (m * (1 - 1 / m) ^ n) = m * (1 - 1 / m) ^ (n + 1) := by ring
    rw [e1] at h1
    refine h1.trans ?_
    have hnn : (0 : ℝ) ≤ n * (n - 1) := by
      rcases Nat.eq_zero_or_pos n with rfl | h
      · simp
      · have : (1 : ℝ) ≤ n := by exact_mod_cast h
        nlinarith
    have e2 : m - ((n + 1 : ℕ) : ℝ) + ((n + 1 : ℕ) : ℝ) * (((n + 1 : ℕ) : ℝ) - 1) / (2 * m) -
        (1 - 1 / m) * (m - n + n * (n - 1) / (2 * m)) = n * (n - 1) / (2 * m ^ 2) := by
      push_cast
      field_simp
      ring
    have : 0 ≤ (n : ℝ) * (n - 1) / (2 * m ^ 2) := by positivity
    linarith

/-- The mean square distance of the number of empty registers from any number. -/
theorem zeros_square_from (hp1 : 1 ≤ p) (hp : p ≤ w) (hw : w ≤ 64) (a : ℝ) :
    mean (fun h : Fin n → Fin (2 ^ 64) => ((zeros w p (hashSet w h) : ℝ) - a) ^ 2) =
      (2 : ℝ) ^ p * (1 - 1 / 2 ^ p) ^ n + 2 ^ p * (2 ^ p - 1) * (1 - 2 / 2 ^ p) ^ n -
        (2 ^ p * (1 - 1 / 2 ^ p) ^ n) ^ 2 + (2 ^ p * (1 - 1 / 2 ^ p) ^ n - a) ^ 2 := by
  have h1 : mean (fun h : Fin n → Fin (2 ^ 64) => (zeros w p (hashSet w h) : ℝ)) =
      2 ^ p * (1 - 1 / 2 ^ p) ^ n := average_zeros hp hw n
  have h2 : mean (fun h : Fin n → Fin (2 ^ 64) =>
      ((zeros w p (hashSet w h) : ℝ) - 2 ^ p * (1 - 1 / 2 ^ p) ^ n) ^ 2) = _ := variance_zeros hp1 hp hw n
  rw [← h2]
  generalize (2 : ℝ) ^ p * (1 - 1 / 2 ^ p) ^ n = μ at *
  have e : (fun h : Fin n → Fin (2 ^ 64) => ((zeros w p (hashSet w h) : ℝ) - a) ^ 2) =
      fun h => (((zeros w p (hashSet w h) : ℝ) - μ) ^ 2 + 2 * (μ - a) * (zeros w p (hashSet w h) : ℝ)) +
        ((μ - a) ^ 2 - 2 * (μ - a) * μ) := by
    funext h; ring
  rw [e, mean_add, mean_add, mean_mul, mean_const, h1]
  ring

/-! ## `HyperLogLogPF` -/

theorem log_slope {m a b : ℝ} (ha : 0 < a) (hb : 0 < b) (ham : a ≤ m) (hbm : b ≤ m) :
    (a - b) ^ 2 ≤ (m * Real.log (m / b) - m * Real.log (m / a)) ^ 2 := by
  have hm : 0 < m := lt_of_lt_of_le ha ham
  have key : ∀ {a b : ℝ}, 0 < a → 0 < b → a ≤ m → b ≤ a → a - b ≤ m * Real.log (a / b) := by
    intro a b ha hb ham hba
    have h1 := Real.one_sub_inv_le_log_of_pos (div_pos ha hb)
    rw [inv_div] at h1
    have h2 : a - b = a * (1 - b / a) := by field_simp
    have h3 : 0 ≤ 1 - b / a := by rw [sub_nonneg, div_le_one ha]; exact hba
    rw [h2]
    exact mul_le_mul ham h1 h3 hm.le
  have e : m * Real.log (m / b) - m * Real.log (m / a) = m * Real.log (a / b) := by
    rw [← mul_sub, ← Real.log_div (by positivity) (by positivity)]
    congr 2
    field_simp
  rw [e]
  rcases le_total b a with h | h
  · exact pow_le_pow_left₀ (sub_nonneg.2 h) (key ha hb ham h) 2
  · have h1 := key hb ha hbm h
    have e2 : m * Real.log (a / b) = -(m * Real.log (b / a)) := by
      rw [← inv_div, Real.log_inv]; ring
    rw [e2, neg_sq, ← neg_sub, neg_sq]
    exact pow_le_pow_left₀ (sub_nonneg.2 h) h1 2

theorem zeros_add_card_ge (hp : p ≤ w) {S : Finset Nat} (hS : ∀ x ∈ S, x < 2 ^ w) :
    2 ^ p ≤ zeros w p S + S.card := by
  have h1 := zeros_add_buckets hp hS
  have h2 : (S.image (bucket w p)).card ≤ S.card := Finset.card_image_le
  omega

theorem hashSet_lt' (w : Nat) (h : Fin n → Fin (2 ^ 64)) : ∀ x ∈ hashSet w h, x < 2 ^ w := by
  intro x hx
  obtain ⟨v, _, rfl⟩ := Finset.mem_image.1 hx
  exact Nat.mod_lt _ (by positivity)

theorem hashSet_card_le' (w : Nat) (h : Fin n → Fin (2 ^ 64)) : (hashSet w h).card ≤ n := by
  refine Finset.card_image_le.trans ?_
  rw [Finset.card_univ, Fintype.card_fin]

/-- What `HyperLogLogPF` computes for few values: linear counting, with an error of `2^-24`. -/
theorem pf_few (hln : LnSpec ln) (h1 : 4 ≤ p) (h2 : p ≤ 16) {S : Finset Nat}
    (hS : ∀ x ∈ S, x < 2 ^ 32) (hn : 100 * S.card ≤ 27 * 2 ^ p) :
    ∃ y : ℚ, pfCount ln p S = fin y ∧
      |(y : ℝ) - 2 ^ p * Real.log (2 ^ p / zeros 32 p S)| ≤ 1 / 2 ^ 24 := by
  have hz := zeros_add_card_ge (w := 32) (p := p) (by omega) hS
  have hz2 := zeros_le 32 p S
  generalize hZ : zeros 32 p S = Z at *
  have hm : (0 : ℝ) < 2 ^ p := by positivity
  have hm16 : (2 : ℝ) ^ p ≤ 2 ^ 16 := pow_le_pow_right₀ (by norm_num) h2
  have hZm : 73 * 2 ^ p ≤ 100 * Z := by omega
  have hZ0 : 0 < Z := by have : 0 < 2 ^ p := by positivity
                         omega
  have hZr : 73 * (2 : ℝ) ^ p ≤ 100 * Z := by exact_mod_cast hZm
  have hZq : 73 * (2 : ℚ) ^ p ≤ 100 * Z := by exact_mod_cast hZm
  have hZr0 : (0 : ℝ) < Z := by exact_mod_cast hZ0
  obtain ⟨y, e1, -, e2⟩ := linear_approx hln (m := 2 ^ p) (V := Z) hZ0 hz2
    (Nat.pow_le_pow_right (by norm_num) (by omega))
  push_cast at e2
  refine ⟨y, ?_, e2.trans ?_⟩
  · have h4 := pf_raw_small h1 h2 S (by
      rw [hZ]
      have : (0 : ℚ) < 2 ^ p := by positivity
      linarith)
    rcases pfRegime_cases ln h1 h2 S with ⟨_, _, _, h⟩ | ⟨h, _⟩
    · rw [h, count_zero_regs, hZ, e1]
    · exact absurd ⟨h4, by rw [count_zero_regs, hZ]; omega⟩ h
  · have hl : Real.log (2 ^ p / Z) ≤ 0.4 := by
      have := Real.log_le_sub_one_of_pos (show (0 : ℝ) < 2 ^ p / Z by positivity)
      have h5 : (2 : ℝ) ^ p / Z ≤ 1.4 := by
        rw [div_le_iff₀ hZr0]; linarith
      linarith
    have hl0 : 0 ≤ Real.log (2 ^ p / Z) := by
      apply Real.log_nonneg
      rw [le_div_iff₀ hZr0, one_mul]
      exact_mod_cast hz2
    have : (2 : ℝ) ^ p * Real.log (2 ^ p / Z) ≤ 2 ^ 16 * 0.4 := mul_le_mul hm16 hl hl0 (by norm_num)
    norm_num at hm16 this ⊢
    linarith

/-- The mean square error of `HyperLogLogPF` for few values, from below. -/
theorem pf_square_ge (hln : LnSpec ln) (h1 : 4 ≤ p) (h2 : p ≤ 16) (hn2 : 2 ≤ n)
    (hn : 100 * n ≤ 27 * 2 ^ p) {y : (Fin n → Fin (2 ^ 64)) → ℚ}
    (hy : ∀ h, pfCount ln p (hashSet 32 h) = fin (y h)) :
    0.99 * (1 - 2 * n / 2 ^ p) * (n * (n - 1) / (2 * 2 ^ p)) ≤ mean fun h => ((y h : ℝ) - n) ^ 2 := by
  have hm : (0 : ℝ) < 2 ^ p := by positivity
  have hm16 : (2 : ℝ) ^ p ≤ 2 ^ 16 := pow_le_pow_right₀ (by norm_num) h2
  have hm4 : (2 : ℝ) ^ 4 ≤ 2 ^ p := pow_le_pow_right₀ (by norm_num) h1
  have hnr : 100 * (n : ℝ) ≤ 27 * 2 ^ p := by exact_mod_cast hn
  have hn2r : (2 : ℝ) ≤ n := by exact_mod_cast hn2
  obtain ⟨a, ha⟩ : ∃ a : ℝ, a = 2 ^ p * Real.exp (-(n / 2 ^ p)) := ⟨_, rfl⟩
  have ha0 : 0 < a := by rw [ha]; positivity
  have ham : a ≤ 2 ^ p := by
    rw [ha]
    have : Real.exp (-(n / 2 ^ p)) ≤ 1 := by
      rw [Real.exp_le_one_iff]
      have : (0 : ℝ) ≤ n / 2 ^ p := by positivity
      linarith
    nlinarith
  have hga : (2 : ℝ) ^ p * Real.log (2 ^ p / a) = n := by
    rw [ha, Real.log_div (by positivity) (by positivity), Real.log_mul (by positivity) (Real.exp_pos _).ne',
      Real.log_exp]
    field_simp
    ring
  have key : ∀ h : Fin n → Fin (2 ^ 64), 0.995 * ((zeros 32 p (hashSet 32 h) : ℝ) - a) ^ 2 + (-(1 / 2 ^ 30)) ≤
      ((y h : ℝ) - n) ^ 2 := by
    intro h
    have hc := hashSet_card_le' 32 h
    obtain ⟨y', e1, e2⟩ := pf_few hln h1 h2 (hashSet_lt' 32 h) (by omega)
    rw [hy h] at e1
    obtain rfl : y h = y' := by simpa using e1
    have hz := zeros_add_card_ge (w := 32) (p := p) (by omega) (hashSet_lt' 32 h)
    have hz2 := zeros_le 32 p (hashSet 32 h)
    have hZ0 : (0 : ℝ) < zeros 32 p (hashSet 32 h) := by
      have : 0 < 2 ^ p := by positivity
      exact_mod_cast (by omega : 0 < zeros 32 p (hashSet 32 h))
    have hZm : (zeros 32 p (hashSet 32 h) : ℝ) ≤ 2 ^ p := by exact_mod_cast hz2
    have h3 := log_slope hZ0 ha0 hZm ham
    rw [hga] at h3
    generalize (zeros 32 p (hashSet 32 h) : ℝ) = Z at *
    generalize (2 : ℝ) ^ p * Real.log (2 ^ p / Z) = g at *
    generalize (y h : ℝ) = x at *
    obtain ⟨d, rfl⟩ : ∃ d, x = g + d := ⟨x - g, by ring⟩
    rw [add_sub_cancel_left] at e2
    have hd : d ^ 2 ≤ 1 / 2 ^ 48 := by
      rw [← sq_abs]
      calc |d| ^ 2 ≤ (1 / 2 ^ 24) ^ 2 := pow_le_pow_left₀ (abs_nonneg d) e2 2
        _ = 1 / 2 ^ 48 := by norm_num
    have e3 : (g + d - n) ^ 2 = 0.995 * (g - n) ^ 2 - 199 * d ^ 2 +
        0.005 * ((g - n) + 200 * d) ^ 2 := by ring
    rw [e3]
    have h4 : (n - g) ^ 2 = (g - n) ^ 2 := by ring
    rw [h4] at h3
    have h5 := sq_nonneg ((g - n) + 200 * d)
    norm_num at hd ⊢
    nlinarith
  refine le_trans ?_ (mean_mono key)
  rw [mean_add, mean_mul, mean_const, zeros_square_from (by omega) (by omega) (by norm_num)]
  have hv := variance_ge (show (2 : ℝ) ≤ 2 ^ p by linarith) n (by omega)
  have hs := sq_nonneg ((2 : ℝ) ^ p * (1 - 1 / 2 ^ p) ^ n - a)
  have hb : 1 - 2 * (n : ℝ) / 2 ^ p ≤ (1 - 1 / 2 ^ p) ^ (2 * n - 1) := by
    have hx : (1 : ℝ) / 2 ^ p ≤ 1 := by rw [div_le_one hm]; linarith
    have hx0 : (0 : ℝ) < 1 / 2 ^ p := by positivity
    have := one_add_mul_le_pow (show -2 ≤ -((1 : ℝ) / 2 ^ p) by linarith) (2 * n - 1)
    rw [← sub_eq_add_neg] at this
    refine le_trans ?_ this
    have h3 : ((2 * n - 1 : ℕ) : ℝ) ≤ 2 * n := by exact_mod_cast (by omega : 2 * n - 1 ≤ 2 * n)
    have h4 := mul_le_mul_of_nonneg_right h3 hx0.le
    have h5 : 2 * (n : ℝ) / 2 ^ p = 2 * n * (1 / 2 ^ p) := by ring
    rw [h5]
    linarith
  have hB : 0 ≤ (n : ℝ) * (n - 1) / (2 * 2 ^ p) := by
    have : (0 : ℝ) ≤ n - 1 := by linarith
    positivity
  have hv2 := (mul_le_mul_of_nonneg_left hb hB).trans hv
  have hb2 : 0.46 ≤ 1 - 2 * (n : ℝ) / 2 ^ p := by
    have : 2 * (n : ℝ) / 2 ^ p ≤ 0.54 := by rw [div_le_iff₀ hm]; linarith
    linarith
  have hB2 : 1 / 2 ^ 16 ≤ (n : ℝ) * (n - 1) / (2 * 2 ^ p) := by
    rw [div_le_div_iff₀ (by positivity) (by positivity)]
    nlinarith
  have h7 : 0.46 * (1 / 2 ^ 16) ≤ (n : ℝ) * (n - 1) / (2 * 2 ^ p) * (1 - 2 * (n : ℝ) / 2 ^ p) := by
    rw [mul_comm ((n : ℝ) * (n - 1) / (2 * 2 ^ p))]
    exact mul_le_mul hb2 hB2 (by norm_num) (by linarith)
  rw [show 0.99 * (1 - 2 * (n : ℝ) / 2 ^ p) * ((n : ℝ) * (n - 1) / (2 * 2 ^ p)) =
    0.99 * ((n : ℝ) * (n - 1) / (2 * 2 ^ p) * (1 - 2 * (n : ℝ) / 2 ^ p)) by ring]
  generalize (n : ℝ) * (n - 1) / (2 * 2 ^ p) * (1 - 2 * (n : ℝ) / 2 ^ p) = X at *
  generalize (2 : ℝ) ^ p * (1 - 1 / 2 ^ p) ^ n + 2 ^ p * (2 ^ p - 1) * (1 - 2 / 2 ^ p) ^ n -
    (2 ^ p * (1 - 1 / 2 ^ p) ^ n) ^ 2 = W at *
  generalize ((2 : ℝ) ^ p * (1 - 1 / 2 ^ p) ^ n - a) ^ 2 = U at *
  norm_num at h7 ⊢
  linarith

/-! ## `HyperLogLogPlus` -/

theorem sparse_upper (hln : LnSpec ln) {k : ℕ} (hk2 : 2 ≤ k) (hk : k ≤ 2 ^ 17) :
    ∃ y : ℚ, linear ln (2 ^ 24) (2 ^ 24 - k) = fin y ∧ (y : ℝ) ≤ k + 1.07 * k ^ 2 / 2 ^ 25 := by
  obtain ⟨y, h1, _, h2⟩ := linear_approx hln (m := 2 ^ 24) (V := 2 ^ 24 - k) (by omega) (by omega) le_rfl
  refine ⟨y, h1, ?_⟩
  have hn1 : (2 : ℝ) ≤ k := by exact_mod_cast hk2
  have hn2 : (k : ℝ) ≤ 2 ^ 17 := by exact_mod_cast hk
  have hc : ((2 ^ 24 - k : ℕ) : ℝ) = 2 ^ 24 - k := by
    rw [Nat.cast_sub (by omega)]; norm_num
  rw [hc] at h2
  obtain ⟨x, hx⟩ : ∃ x : ℝ, x = k / 2 ^ 24 := ⟨_, rfl⟩
  have hnx : (k : ℝ) = 2 ^ 24 * x := by rw [hx]; field_simp
  have hx1 : x ≤ 1 / 2 ^ 7 := by
    rw [hx, div_le_iff₀ (by positivity)]; norm_num at hn2 ⊢; linarith
  have hx0 : 1 / 2 ^ 23 ≤ x := by
    rw [hx, le_div_iff₀ (by positivity)]; norm_num at hn1 ⊢; linarith
  have hxp : 0 < x := lt_of_lt_of_le (by positivity) hx0
  have hLeq : Real.log (((2 ^ 24 : ℕ) : ℝ) / (2 ^ 24 - k)) = -Real.log (1 - x) := by
    rw [← Real.log_inv]
    congr 1
    rw [hnx]
    push_cast
    rw [show (2 ^ 24 - 2 ^ 24 * x : ℝ) = 2 ^ 24 * (1 - x) by ring]
    have : 1 - x ≠ 0 := by norm_num at hx1; linarith
    field_simp
    norm_num
  rw [hLeq] at h2
  have h3 := neg_log_one_sub hxp (by norm_num at hx1 ⊢; linarith)
  have hcube : x ^ 3 / (1 - x) ≤ 1.01 * x ^ 3 := by
    rw [div_le_iff₀ (by norm_num at hx1; linarith)]
    have : 0 < x ^ 3 := by positivity
    norm_num at hx1
    nlinarith
  have hcube2 : x ^ 3 ≤ x ^ 2 / 2 ^ 7 := by
    have : x ^ 3 = x ^ 2 * x := by ring
    rw [this]
    have : 0 < x ^ 2 := by positivity
    nlinarith
  generalize -Real.log (1 - x) = L at *
  rw [abs_le] at h2 h3
  push_cast at h2
  have hsq : 1 / 2 ^ 46 ≤ x ^ 2 := by
    calc (1 : ℝ) / 2 ^ 46 = (1 / 2 ^ 23) ^ 2 := by norm_num
      _ ≤ x ^ 2 := pow_le_pow_left₀ (by positivity) hx0 2
  have hsq2 : x ≤ 2 ^ 23 * x ^ 2 := by
    have : x * (1 / 2 ^ 23) ≤ x * x := mul_le_mul_of_nonneg_left hx0 hxp.le
    norm_num at this ⊢
    nlinarith
  rw [hnx]
  have e : (1.07 : ℝ) * (2 ^ 24 * x) ^ 2 / 2 ^ 25 = 1.07 * 2 ^ 23 * x ^ 2 := by ring
  rw [e]
  norm_num at h2 h3 hsq hsq2 hcube hcube2 hx1 ⊢
  nlinarith

/-- The condition under which a sketch of `n` values is certainly sparse. -/
theorem few_card (h2 : p ≤ 18) (hn : 5 * n ≤ 4 * 2 ^ p / 5 ∨ 4 * n + 15 ≤ 4 * 2 ^ p / 5 ∨
    3 * n + 2047 ≤ 4 * 2 ^ p / 5) : 15 * n ≤ 4 * 2 ^ p ∧ n ≤ 2 ^ 17 := by
  have : 2 ^ p ≤ 2 ^ 18 := Nat.pow_le_pow_right (by norm_num) h2
  omega

theorem prefixes_real (S : Finset Nat) : (2 : ℝ) ^ 25 - zeros 64 25 S ≤ (codes p S).card := by
  have h5 : ((2 ^ 25 : ℕ) : ℝ) ≤ ((zeros 64 25 S + (codes p S).card : ℕ) : ℝ) :=
    Nat.cast_le.2 prefixes_le_codes
  rw [Nat.cast_pow, Nat.cast_add] at h5
  generalize (zeros 64 25 S : ℝ) = Z at *
  generalize ((codes p S).card : ℝ) = K at *
  norm_num at h5 ⊢
  linarith

theorem linear_few (hln : LnSpec ln) {K : Nat} (hK0 : 0 < K) (hK : K ≤ n) (hc : n ≤ 2 ^ 17) {y : ℚ}
    (hy : linear ln (2 ^ 24) (2 ^ 24 - K) = fin y) :
    (K : ℝ) ≤ y ∧ (2 ≤ n → (y : ℝ) ≤ n + 1.07 * n ^ 2 / 2 ^ 25) ∧
      (n = 1 → |(y : ℝ) - 1| ≤ 1 / 2 ^ 23) := by
  obtain ⟨y1, a1, a2, a3, -⟩ := sparse_bounds hln hK0 (by omega : K ≤ 2 ^ 18)
  rw [hy] at a1
  obtain rfl : y = y1 := by simpa using a1
  have a2r : (K : ℝ) ≤ y := by exact_mod_cast a2
  have a3r : (y : ℝ) ≤ K * 2 ^ 24 / (2 ^ 24 - K) := by
    have := (Rat.cast_le (K := ℝ)).2 a3
    push_cast at this
    exact this
  refine ⟨a2r, fun hn2 => ?_, fun hn1 => ?_⟩
  · have hKn : (K : ℝ) ≤ n := by exact_mod_cast hK
    rcases Nat.lt_or_ge K 2 with h | h
    · obtain rfl : K = 1 := by omega
      have : (2 : ℝ) ≤ n := by exact_mod_cast hn2
      have h0 : (0 : ℝ) ≤ 1.07 * n ^ 2 / 2 ^ 25 := by positivity
      norm_num at a3r h0 ⊢
      linarith
    · obtain ⟨y2, b1, b2⟩ := sparse_upper hln h (by omega)
      rw [hy] at b1
      obtain rfl : y = y2 := by simpa using b1
      refine b2.trans ?_
      gcongr
  · obtain rfl : K = 1 := by omega
    rw [abs_le]
    norm_num at a3r a2r ⊢
    constructor <;> linarith

/-- What `HyperLogLogPlus` computes for few values. -/
theorem plus_few (hln : LnSpec ln) (v : Search) (h2 : p ≤ 18) {S : Finset Nat}
    (hS : ∀ x ∈ S, x < 2 ^ 64) (hS0 : S.Nonempty) (hSn : S.card ≤ n)
    (hn : 5 * n ≤ 4 * 2 ^ p / 5 ∨ 4 * n + 15 ≤ 4 * 2 ^ p / 5 ∨ 3 * n + 2047 ≤ 4 * 2 ^ p / 5)
    {y : ℚ} (hy : plusCount ln (Plus.biasOf v) p S = fin y) :
    (2 : ℝ) ^ 25 - zeros 64 25 S ≤ y ∧ (2 ≤ n → (y : ℝ) ≤ n + 1.07 * n ^ 2 / 2 ^ 25) ∧
      (n = 1 → |(y : ℝ) - 1| ≤ 1 / 2 ^ 23) := by
  obtain ⟨-, hc⟩ := few_card h2 hn
  have hf : fitsSparse p S := by
    have := encSize_codes_le (p := p) hS
    unfold fitsSparse capacity
    omega
  rw [plusCount, if_pos hf] at hy
  have hK : (codes p S).card ≤ S.card := Finset.card_image_le
  have hK0 : 0 < (codes p S).card := Finset.card_pos.2 (hS0.image _)
  have hP := prefixes_real (p := p) S
  obtain ⟨k1, k2, k3⟩ := linear_few (n := n) hln hK0 (hK.trans hSn) hc hy
  exact ⟨hP.trans k1, k2, k3⟩

theorem hashSet_nonempty' (w : Nat) (hn : 1 ≤ n) (h : Fin n → Fin (2 ^ 64)) : (hashSet w h).Nonempty := by
  have : Nonempty (Fin n) := ⟨⟨0, by omega⟩⟩
  exact Finset.univ_nonempty.image _

/-- The mean square error of `HyperLogLogPlus` for few values, from above. -/
theorem plus_square_few (hln : LnSpec ln) (v : Search) (h2 : p ≤ 18) (hn2 : 2 ≤ n)
    (hn : 5 * n ≤ 4 * 2 ^ p / 5 ∨ 4 * n + 15 ≤ 4 * 2 ^ p / 5 ∨ 3 * n + 2047 ≤ 4 * 2 ^ p / 5)
    {y : (Fin n → Fin (2 ^ 64)) → ℚ} (hy : ∀ h, plusCount ln (Plus.biasOf v) p (hashSet 64 h) = fin (y h)) :
    mean (fun h => ((y h : ℝ) - n) ^ 2) ≤ n * (2 * n - 1) / 2 ^ 25 + 1.4 * n ^ 4 / 2 ^ 50 := by
  have hn2r : (2 : ℝ) ≤ n := by exact_mod_cast hn2
  have key : ∀ h, ((y h : ℝ) - n) ^ 2 ≤
      ((zeros 64 25 (hashSet 64 h) : ℝ) - (2 ^ 25 - n)) ^ 2 + (1.07 * (n : ℝ) ^ 2 / 2 ^ 25) ^ 2 := by
    intro h
    obtain ⟨a1, a2, -⟩ := plus_few hln v h2 (hashSet_lt' 64 h) (hashSet_nonempty' 64 (by omega) h)
      (hashSet_card_le' 64 h) hn (hy h)
    have a2 := a2 hn2
    have hA : (0 : ℝ) ≤ 1.07 * n ^ 2 / 2 ^ 25 := by positivity
    generalize (y h : ℝ) = x at *
    generalize (zeros 64 25 (hashSet 64 h) : ℝ) = Z at *
    generalize (1.07 : ℝ) * n ^ 2 / 2 ^ 25 = A at *
    rcases le_total (n : ℝ) x with hx | hx
    · have : (x - n) ^ 2 ≤ A ^ 2 := pow_le_pow_left₀ (by linarith) (by linarith) 2
      have := sq_nonneg (Z - (2 ^ 25 - n))
      linarith
    · have h3 : (n - x) ^ 2 ≤ (Z - (2 ^ 25 - n)) ^ 2 := pow_le_pow_left₀ (by linarith) (by linarith) 2
      have h4 : (x - n) ^ 2 = (n - x) ^ 2 := by ring
      have := sq_nonneg A
      linarith
  refine (mean_mono key).trans ?_
  rw [mean_add, mean_const, zeros_square_from (by norm_num) (by norm_num) (by norm_num)]
  have hv := variance_small (show (2 : ℝ) ≤ 2 ^ 25 by norm_num) n (by omega)
  have ho := bonferroni (show (1 : ℝ) ≤ 2 ^ 25 by norm_num) n
  have hb : (1 : ℝ) - n * (1 / 2 ^ 25) ≤ (1 - 1 / 2 ^ 25) ^ n := by
    have := one_add_mul_le_pow (show -2 ≤ -((1 : ℝ) / 2 ^ 25) by norm_num) n
    rw [← sub_eq_add_neg] at this
    linarith
  have hd : ((2 : ℝ) ^ 25 * (1 - 1 / 2 ^ 25) ^ n - (2 ^ 25 - n)) ^ 2 ≤ ((n : ℝ) * (n - 1) / (2 * 2 ^ 25)) ^ 2 := by
    apply pow_le_pow_left₀
    · generalize (1 - 1 / (2 : ℝ) ^ 25) ^ n = Q at *
      norm_num at hb ⊢
      linarith
    · linarith
  have hd2 : ((n : ℝ) * (n - 1) / (2 * 2 ^ 25)) ^ 2 ≤ 0.25 * n ^ 4 / 2 ^ 50 := by
    have h0 : (n : ℝ) * (n - 1) ≤ n ^ 2 := by nlinarith
    have h1 : (0 : ℝ) ≤ (n : ℝ) * (n - 1) / (2 * 2 ^ 25) := by
      have : (0 : ℝ) ≤ n - 1 := by linarith
      positivity
    have h3 : (n : ℝ) * (n - 1) / (2 * 2 ^ 25) ≤ (n : ℝ) ^ 2 / (2 * 2 ^ 25) := by gcongr
    refine (pow_le_pow_left₀ h1 h3 2).trans (le_of_eq ?_)
    ring
  have hA : (1.07 * (n : ℝ) ^ 2 / 2 ^ 25) ^ 2 ≤ 1.15 * n ^ 4 / 2 ^ 50 := by
    have e : (1.07 * (n : ℝ) ^ 2 / 2 ^ 25) ^ 2 = 1.1449 * n ^ 4 / 2 ^ 50 := by ring
    rw [e]
    gcongr
    norm_num
  have e : 1.4 * (n : ℝ) ^ 4 / 2 ^ 50 = 0.25 * n ^ 4 / 2 ^ 50 + 1.15 * n ^ 4 / 2 ^ 50 := by ring
  rw [e]
  linarith

/-! ## The comparison -/

/-- One value: the error of `HyperLogLogPF` is at least `2^-18`. -/
theorem pf_one (hln : LnSpec ln) (h1 : 4 ≤ p) (h2 : p ≤ 16) {S : Finset Nat}
    (hS : ∀ x ∈ S, x < 2 ^ 32) (hc : S.card = 1) {y : ℚ} (hy : pfCount ln p S = fin y) :
    (1 / 2 ^ 18) ^ 2 ≤ ((y : ℝ) - 1) ^ 2 := by
  have hm4 : 2 ^ 4 ≤ 2 ^ p := Nat.pow_le_pow_right (by norm_num) h1
  obtain ⟨y', e1, e2⟩ := pf_few hln h1 h2 hS (by omega)
  rw [hy] at e1
  obtain rfl : y = y' := by simpa using e1
  have hz := zeros_add_buckets (w := 32) (p := p) (by omega) hS
  have hb : (S.image (bucket 32 p)).card = 1 := by
    obtain ⟨x, rfl⟩ := Finset.card_eq_one.1 hc
    simp
  have hm : (0 : ℝ) < 2 ^ p := by positivity
  have hm16 : (2 : ℝ) ^ p ≤ 2 ^ 16 := pow_le_pow_right₀ (by norm_num) h2
  have hm4r : (2 : ℝ) ^ 4 ≤ 2 ^ p := pow_le_pow_right₀ (by norm_num) h1
  have hZ : (zeros 32 p S : ℝ) = 2 ^ p - 1 := by
    have : ((zeros 32 p S + 1 : ℕ) : ℝ) = ((2 ^ p : ℕ) : ℝ) := by rw [← hz, hb]
    push_cast at this
    linarith
  rw [hZ] at e2
  have hl : 1 + 1 / (2 * 2 ^ p) ≤ (2 : ℝ) ^ p * Real.log (2 ^ p / (2 ^ p - 1)) := by
    generalize (2 : ℝ) ^ p = m at *
    have hm1 : 0 < m - 1 := by norm_num at hm4r; linarith
    have hx0 : (0 : ℝ) < 1 / m := by positivity
    have hx1 : 1 / m < 1 := by rw [div_lt_one hm]; linarith
    have hs := Real.hasSum_pow_div_log_of_abs_lt_one (x := 1 / m) (by rwa [abs_of_pos hx0])
    have hle := sum_le_hasSum (Finset.range 2) (fun i _ => by positivity) hs
    simp only [Finset.sum_range_succ, Finset.sum_range_zero] at hle
    have e : Real.log (m / (m - 1)) = -Real.log (1 - 1 / m) := by
      rw [← Real.log_inv]
      congr 1
      field_simp
    rw [e]
    have e2 : 1 + 1 / (2 * m) = m * (0 + (1 / m) ^ (0 + 1) / ((0 : ℕ) + 1) +
        (1 / m) ^ (1 + 1) / ((1 : ℕ) + 1)) := by
      push_cast
      field_simp
      ring
    rw [e2]
    exact mul_le_mul_of_nonneg_left hle hm.le
  have h5 : 1 / 2 ^ 17 ≤ 1 / (2 * (2 : ℝ) ^ p) := by
    apply one_div_le_one_div_of_le (by positivity)
    norm_num at hm16 ⊢
    linarith
  rw [abs_le] at e2
  apply pow_le_pow_left₀ (by positivity)
  norm_num at e2 h5 hl ⊢
  linarith

/-- The mean square error of `HyperLogLogPlus` is at most `0.16` times that of `HyperLogLogPF`. -/
theorem square_compare (hln : LnSpec ln) (v : Search) (h1 : 4 ≤ p) (h2 : p ≤ 16) (hn1 : 1 ≤ n)
    (hn : 5 * n ≤ 4 * 2 ^ p / 5 ∨ 4 * n + 15 ≤ 4 * 2 ^ p / 5 ∨ 3 * n + 2047 ≤ 4 * 2 ^ p / 5)
    {y z : (Fin n → Fin (2 ^ 64)) → ℚ} (hy : ∀ h, plusCount ln (Plus.biasOf v) p (hashSet 64 h) = fin (y h))
    (hz : ∀ h, pfCount ln p (hashSet 32 h) = fin (z h)) :
    mean (fun h => ((y h : ℝ) - n) ^ 2) ≤ 0.16 * mean fun h => ((z h : ℝ) - n) ^ 2 := by
  obtain ⟨hc1, hc2⟩ := few_card (by omega : p ≤ 18) hn
  rcases Nat.lt_or_ge n 2 with h | hn2
  · obtain rfl : n = 1 := by omega
    have hz1 : (1 / 2 ^ 18) ^ 2 ≤ mean fun h : Fin 1 → Fin (2 ^ 64) => ((z h : ℝ) - (1 : ℕ)) ^ 2 := by
      rw [← mean_const (n := 1) ((1 / 2 ^ 18) ^ 2)]
      refine mean_mono fun h => ?_
      have hc : (hashSet 32 h).card = 1 := by
        have k1 := hashSet_card_le' 32 h
        have k2 := (hashSet_nonempty' 32 le_rfl h).card_pos
        omega
      have := pf_one hln h1 h2 (hashSet_lt' 32 h) hc (hz h)
      rwa [Nat.cast_one]
    have hy1 : mean (fun h : Fin 1 → Fin (2 ^ 64) => ((y h : ℝ) - (1 : ℕ)) ^ 2) ≤ (1 / 2 ^ 23) ^ 2 := by
      rw [← mean_const (n := 1) ((1 / 2 ^ 23) ^ 2)]
      refine mean_mono fun h => ?_
      have := (plus_few hln v (by omega) (hashSet_lt' 64 h) (hashSet_nonempty' 64 le_rfl h)
        (hashSet_card_le' 64 h) hn (hy h)).2.2 rfl
      rw [Nat.cast_one, ← sq_abs]
      exact pow_le_pow_left₀ (abs_nonneg _) this 2
    norm_num at hz1 hy1 ⊢
    linarith
  · have k1 := plus_square_few hln v (by omega) hn2 hn hy
    have k2 := pf_square_ge hln h1 h2 hn2 (by omega) hz
    refine k1.trans (le_trans ?_ (mul_le_mul_of_nonneg_left k2 (by norm_num)))
    have hn2r : (2 : ℝ) ≤ n := by exact_mod_cast hn2
    have hm : (0 : ℝ) < 2 ^ p := by positivity
    have hm16 : (2 : ℝ) ^ p ≤ 2 ^ 16 := pow_le_pow_right₀ (by norm_num) h2
    have hc1r : 15 * (n : ℝ) ≤ 4 * 2 ^ p := by exact_mod_cast hc1
    have hnn : (0 : ℝ) < n * (n - 1) := by nlinarith
    -- both sides in units of `n (n-1)`
    have a1 : (n : ℝ) * (2 * n - 1) ≤ 3 * (n * (n - 1)) := by nlinarith
    have a2 : (n : ℝ) ^ 4 ≤ (n ^ 2 + n + 2) * (n * (n - 1)) := by nlinarith
    have hn17 : (n : ℝ) ≤ 17477 := by norm_num at hm16; linarith
    have a3 : (n : ℝ) ^ 2 + n + 2 ≤ 305463008 := by nlinarith
    have a4 : (n : ℝ) ^ 4 ≤ 305463008 * (n * (n - 1)) := a2.trans (by gcongr)
    have b1 : 7 / 15 ≤ 1 - 2 * (n : ℝ) / 2 ^ p := by
      have : 2 * (n : ℝ) / 2 ^ p ≤ 8 / 15 := by rw [div_le_iff₀ hm]; linarith
      linarith
    have b2 : (n : ℝ) * (n - 1) * (1 / 2 ^ 17) ≤ n * (n - 1) / (2 * 2 ^ p) := by
      rw [mul_one_div]
      apply div_le_div_of_nonneg_left hnn.le (by positivity)
      norm_num at hm16 ⊢
      linarith
    have b3 : 7 / 15 * ((n : ℝ) * (n - 1) * (1 / 2 ^ 17)) ≤
        (1 - 2 * (n : ℝ) / 2 ^ p) * (n * (n - 1) / (2 * 2 ^ p)) :=
      mul_le_mul b1 b2 (by positivity) (by linarith)
    rw [mul_assoc 0.99]
    generalize (1 - 2 * (n : ℝ) / 2 ^ p) * (n * (n - 1) / (2 * 2 ^ p)) = X at *
    generalize (n : ℝ) * (n - 1) = u at *
    generalize (n : ℝ) * (2 * n - 1) = t at *
    generalize (n : ℝ) ^ 4 = q at *
    norm_num at b3 a4 a1 ⊢
    linarith

end HLL
