import Verif.Proofs.Sharp
import Verif.Proofs.OscLower

/-!
# A lower bound on the mean square error

The registers of a sketch are almost independent, and the third moment of the harmonic sum is small; so
the variance of the estimate is almost that of a sum of independent registers.
-/

namespace HLL
open Spec Osc Finset F64

variable {w p n : Nat} {ln : F64 → F64}

/-- The (almost) independence of two registers. -/
theorem pair_ge {a b : ℝ} (ha : 0 ≤ a) (hb : 0 ≤ b) (ha1 : a ≤ 1 / 2048) (hb1 : b ≤ 1 / 2048) (n : Nat) :
    (1 - a) ^ n * (1 - b) ^ n - 1.001 * n * (a * (1 - a) ^ n * (b * (1 - b) ^ n)) ≤ (1 - (a + b)) ^ n := by
  have hs : 0.99902 ≤ (1 - a) * (1 - b) := by norm_num at *; nlinarith [mul_nonneg ha hb]
  have hs0 : 0 < (1 - a) * (1 - b) := by norm_num at hs; linarith
  have hab : 0 ≤ a * b := by positivity
  have hr : a * b / ((1 - a) * (1 - b)) ≤ 1.001 * (a * b) := by
    rw [div_le_iff₀ hs0]
    have : 1 ≤ 1.001 * ((1 - a) * (1 - b)) := by norm_num at hs ⊢; linarith
    nlinarith
  have e : 1 - (a + b) = (1 - a) * (1 - b) * (1 + -(a * b / ((1 - a) * (1 - b)))) := by
    rw [mul_add, mul_one, mul_neg, mul_div_cancel₀ _ hs0.ne']; ring
  have hB := one_add_mul_le_pow (a := -(a * b / ((1 - a) * (1 - b)))) (by
    have : a * b ≤ 1 / 2048 * (1 / 2048) := by gcongr
    norm_num at this hr ⊢; linarith) n
  have hS : 0 ≤ ((1 - a) * (1 - b)) ^ n := by positivity
  rw [e, mul_pow]
  refine le_trans ?_ (mul_le_mul_of_nonneg_left hB hS)
  have h2 : (n : ℝ) * (a * b / ((1 - a) * (1 - b))) ≤ n * (1.001 * (a * b)) := by gcongr
  have h3 : ((1 - a) * (1 - b)) ^ n * (1 - n * (1.001 * (a * b))) ≤
      ((1 - a) * (1 - b)) ^ n * (1 + n * -(a * b / ((1 - a) * (1 - b)))) :=
    mul_le_mul_of_nonneg_left (by linarith) hS
  refine le_trans (le_of_eq ?_) h3
  rw [mul_pow]; ring

/-- How fast the mean of a register's term falls with the number of values. -/
noncomputable def decay (w p n : Nat) : ℝ :=
  ∑ k ∈ range (w - p + 1), ((1 / 2 : ℝ) ^ k - (1 / 2) ^ (k + 1)) *
    (1 / 2 ^ (p + k) * (1 - 1 / 2 ^ (p + k)) ^ n)

theorem mean_pow_two_ge {i j : Nat} (n : Nat) (hp1 : 11 ≤ p) (hp : p ≤ w) (hw : w ≤ 64) (hi : i < 2 ^ p)
    (hj : j < 2 ^ p) (hij : i ≠ j) :
    moment w p n (1 / 2) ^ 2 - 1.001 * n * decay w p n ^ 2 ≤
    mean (fun h : Fin n → Fin (2 ^ 64) => (1 / 2 : ℝ) ^ reg w p (hashSet w h) i *
      (1 / 2) ^ reg w p (hashSet w h) j) := by
  obtain ⟨a, ha⟩ : ∃ a : ℝ, a = 1 / 2 := ⟨_, rfl⟩
  obtain ⟨D, hDdef⟩ : ∃ D, D = decay w p n := ⟨_, rfl⟩
  rw [← hDdef]
  rw [decay] at hDdef
  rw [← ha] at hDdef ⊢
  set R := w - p + 1 with hR
  have e : (fun h : Fin n → Fin (2 ^ 64) =>
      a ^ reg w p (hashSet w h) i * a ^ reg w p (hashSet w h) j) = fun h =>
      a ^ R * a ^ reg w p (hashSet w h) j +
      ∑ k ∈ Finset.range R, (a ^ k - a ^ (k + 1)) *
        (a ^ R * (if reg w p (hashSet w h) i ≤ k then (1 : ℝ) else 0) +
        ∑ l ∈ Finset.range R, (a ^ l - a ^ (l + 1)) *
          ((if reg w p (hashSet w h) i ≤ k then (1 : ℝ) else 0) *
            if reg w p (hashSet w h) j ≤ l then (1 : ℝ) else 0)) := by
    funext h
    rw [pow_eq_sum a (show reg w p (hashSet w h) i ≤ R from reg_le _ _ _ _), add_mul, Finset.sum_mul]
    congr 1
    refine Finset.sum_congr rfl fun k _ => ?_
    conv_lhs => rw [pow_eq_sum a (show reg w p (hashSet w h) j ≤ R from reg_le _ _ _ _)]
    rw [mul_assoc, mul_add, Finset.mul_sum, mul_comm (a ^ R)]
    congr 2
    exact Finset.sum_congr rfl fun l _ => by ring
  rw [e, mean_add, mean_mul, mean_pow n hp hw hj, mean_sum]
  have hq : ∀ k, (0 : ℝ) ≤ 1 / 2 ^ (p + k) ∧ 1 / (2 : ℝ) ^ (p + k) ≤ 1 / 2048 := by
    intro k
    refine ⟨by positivity, ?_⟩
    apply one_div_le_one_div_of_le (by norm_num)
    calc (2048 : ℝ) = 2 ^ 11 := by norm_num
      _ ≤ 2 ^ (p + k) := pow_le_pow_right₀ (by norm_num) (by omega)
  have hd : ∀ k : ℕ, 0 ≤ a ^ k - a ^ (k + 1) := fun k =>
    sub_nonneg.2 (pow_le_pow_of_le_one (by rw [ha]; norm_num) (by rw [ha]; norm_num) (Nat.le_succ k))
  have hm : moment w p n a ^ 2 - 1.001 * n * D ^ 2 = a ^ R * moment w p n a +
      ∑ k ∈ Finset.range R, (a ^ k - a ^ (k + 1)) * ((1 - 1 / 2 ^ (p + k)) ^ n * moment w p n a -
        1.001 * n * (1 / 2 ^ (p + k) * (1 - 1 / 2 ^ (p + k)) ^ n * D)) := by
    have e1 : moment w p n a ^ 2 = a ^ R * moment w p n a +
      ∑ k ∈ Finset.range R, (a ^ k - a ^ (k + 1)) * ((1 - 1 / 2 ^ (p + k)) ^ n * moment w p n a) := by
      rw [sq]
      conv_lhs => enter [1]; rw [moment]
      rw [add_mul, Finset.sum_mul]
      congr 1
      exact Finset.sum_congr rfl fun k _ => by ring
    have e2 : 1.001 * n * D ^ 2 = ∑ k ∈ Finset.range R, (a ^ k - a ^ (k + 1)) *
        (1.001 * n * (1 / 2 ^ (p + k) * (1 - 1 / 2 ^ (p + k)) ^ n * D)) := by
      rw [sq]
      conv_lhs => enter [2, 1]; rw [hDdef]
      rw [Finset.sum_mul, Finset.mul_sum]
      exact Finset.sum_congr rfl fun k _ => by ring
    rw [e1, e2, add_sub_assoc, ← Finset.sum_sub_distrib]
    congr 1
    exact Finset.sum_congr rfl fun k _ => by ring
  rw [hm]
  refine add_le_add le_rfl (Finset.sum_le_sum fun k hk => ?_)
  rw [Finset.mem_range] at hk
  rw [mean_mul]
  refine mul_le_mul_of_nonneg_left ?_ (hd k)
  rw [mean_add, mean_mul, mean_reg_le n (by omega) hw hi, mean_sum, moment, mul_add, ← hR,
    Finset.mul_sum, mul_comm (a ^ R), add_sub_assoc]
  conv_lhs => enter [2, 2]; rw [hDdef]
  rw [Finset.mul_sum, Finset.mul_sum, ← Finset.sum_sub_distrib]
  refine add_le_add le_rfl (Finset.sum_le_sum fun l hl => ?_)
  rw [Finset.mem_range] at hl
  rw [mean_mul, mean_reg_le_two n (by omega) (by omega) hw hi hj hij]
  have key := pair_ge (hq k).1 (hq l).1 (hq k).2 (hq l).2 n
  refine le_trans (le_of_eq ?_) (mul_le_mul_of_nonneg_left key (hd l))
  ring

theorem decay_nonneg : 0 ≤ decay w p n := by
  refine Finset.sum_nonneg fun k _ => ?_
  have := arg_le (p := p) k
  rw [half_pow_sub]
  have h : (0 : ℝ) ≤ 1 - 1 / 2 ^ (p + k) := by linarith
  positivity

theorem decay_le (hn : 0 < n) :
    decay w p n ≤ Q (w - p + 1) (n / 2 ^ p) / (2 * 2 ^ p * (n / 2 ^ p) ^ 2) := by
  have hn' : (0 : ℝ) < n := by exact_mod_cast hn
  have hl : (0 : ℝ) < n / 2 ^ p := by positivity
  have h4 : ∀ k : ℕ, (4 : ℝ) ^ k = (2 ^ k) ^ 2 := fun k => by
    rw [← pow_mul, mul_comm, pow_mul]; norm_num
  rw [le_div_iff₀ (by positivity), decay, Q, Finset.sum_mul]
  refine le_add_of_le_of_nonneg (Finset.sum_le_sum fun k _ => ?_) (by positivity)
  have h := pow_le_exp (arg_le (p := p) k) n
  rw [arg_eq] at h
  have hp : (2 : ℝ) ^ (p + k) = 2 ^ p * 2 ^ k := pow_add _ _ _
  generalize (n : ℝ) / 2 ^ p = l at *
  rw [half_pow_sub, q]
  calc (1 / 2 : ℝ) ^ k / 2 * (1 / 2 ^ (p + k) * (1 - 1 / 2 ^ (p + k)) ^ n) * (2 * 2 ^ p * l ^ 2)
      ≤ (1 / 2 : ℝ) ^ k / 2 * (1 / 2 ^ (p + k) * Real.exp (-(l / 2 ^ k))) * (2 * 2 ^ p * l ^ 2) := by gcongr
    _ = (l / 2 ^ k) ^ 2 * Real.exp (-(l / 2 ^ k)) := by rw [one_div, inv_pow, hp]; field_simp

/-- The variance of the harmonic sum from below. -/
theorem variance_harm_ge (n : Nat) (hp1 : 11 ≤ p) (hp : p ≤ w) (hw : w ≤ 64) :
    2 ^ p * (moment w p n (1 / 4) - moment w p n (1 / 2) ^ 2) -
      (2 ^ p) ^ 2 * (1.001 * n * decay w p n ^ 2) ≤
    mean (fun h : Fin n → Fin (2 ^ 64) => (harm w p h - 2 ^ p * moment w p n (1 / 2)) ^ 2) := by
  set e := moment w p n (1 / 2) with he
  set d := 1.001 * n * decay w p n ^ 2 with hd
  have hd0 : 0 ≤ d := by positivity
  have e1 : (fun h : Fin n → Fin (2 ^ 64) => (harm w p h - 2 ^ p * e) ^ 2) = fun h =>
      (∑ i ∈ Finset.range (2 ^ p), ∑ j ∈ Finset.range (2 ^ p),
        (1 / 2 : ℝ) ^ reg w p (hashSet w h) i * (1 / 2) ^ reg w p (hashSet w h) j) +
      ((2 ^ p * e) ^ 2 - (2 * (2 ^ p * e)) * harm w p h) := by
    funext h
    rw [← Finset.sum_mul_sum]
    simp only [harm]
    ring
  rw [e1, mean_add, mean_sub, mean_const, mean_mul, mean_harm n hp hw, ← he, mean_sum]
  have h2 : ∀ i ∈ Finset.range (2 ^ p), moment w p n (1 / 4) + (2 ^ p - 1) * (e ^ 2 - d) ≤
      mean (fun h : Fin n → Fin (2 ^ 64) => ∑ j ∈ Finset.range (2 ^ p),
        (1 / 2 : ℝ) ^ reg w p (hashSet w h) i * (1 / 2) ^ reg w p (hashSet w h) j) := by
    intro i hi
    rw [mean_sum, ← Finset.add_sum_erase _ _ hi]
    rw [Finset.mem_range] at hi
    refine add_le_add (le_of_eq ?_) ?_
    · rw [← mean_pow n hp hw hi]
      congr 1
      funext h
      rw [← mul_pow]; norm_num
    · refine (le_of_eq ?_).trans (Finset.sum_le_sum (f := fun _ => e ^ 2 - d) fun j hj => ?_)
      · rw [Finset.sum_const, Finset.card_erase_of_mem (Finset.mem_range.2 hi), Finset.card_range,
          nsmul_eq_mul, Nat.cast_sub Nat.one_le_two_pow]
        push_cast
        rfl
      · rw [Finset.mem_erase, Finset.mem_range] at hj
        exact mean_pow_two_ge n hp1 hp hw hi hj.2 (Ne.symm hj.1)
  have h3 := Finset.sum_le_sum h2
  rw [Finset.sum_const, Finset.card_range, nsmul_eq_mul] at h3
  push_cast at h3
  refine le_trans ?_ (add_le_add h3 le_rfl)
  have hm0 : (0 : ℝ) < 2 ^ p := by positivity
  generalize (2 : ℝ) ^ p = m at *
  nlinarith

/-- The numbers. -/
theorem lower_numbers (h1 : 11 ≤ p) (h2 : p ≤ 18) (hn24 : 24 * 2 ^ p < n) (hn : n ≤ 2 ^ 59) :
    1.072 ≤ relVar 64 p n ∧ decay 64 p n ≤ 1.003 * moment 64 p n (1 / 2) / n := by
  have hm : (2 : ℝ) ^ 11 ≤ 2 ^ p := pow_le_pow_right₀ (by norm_num) h1
  have hm0 : (0 : ℝ) < 2 ^ p := by positivity
  have hn24' : 24 * (2 : ℝ) ^ p < n := by exact_mod_cast hn24
  have hn59 : (n : ℝ) ≤ 2 ^ 59 := by exact_mod_cast hn
  have hn0 : (0 : ℝ) < n := by linarith
  have hn0' : 0 < n := by omega
  have hl : (24 : ℝ) ≤ n / 2 ^ p := by rw [le_div_iff₀ hm0]; linarith
  have hu : (n : ℝ) / 2 ^ p / 2 ^ (64 - p + 1) = n / 2 ^ 65 := by
    rw [div_div, ← pow_add]; congr 2; omega
  have hL : (n : ℝ) / 2 ^ p ≤ 2 ^ (64 - p + 1) := by
    rw [div_le_iff₀ hm0, ← pow_add, show 64 - p + 1 + p = 65 by omega]
    norm_num at hn59 ⊢; linarith
  have hv : (n : ℝ) / 2 ^ 65 ≤ 1 / 64 := by
    rw [div_le_iff₀ (by positivity)]; norm_num at hn59 ⊢; linarith
  have hv0 : 0 ≤ (n : ℝ) / 2 ^ 65 := by positivity
  obtain ⟨g1, g2, g3⟩ := G_bounds (by linarith) hL
  have q1 := Q_lower (by linarith) hL
  have q2 := q_48 (u := 2 * (n / 2 ^ p)) (by linarith)
  have g4 : g (2 * (n / 2 ^ p)) ≤ 1 / 10 ^ 6 := by
    refine le_trans ?_ q2
    have h5 : 1 ≤ 2 * ((n : ℝ) / 2 ^ p) := by linarith
    rw [g, q]
    have := Real.exp_pos (-(2 * ((n : ℝ) / 2 ^ p)))
    have h6 : 2 * ((n : ℝ) / 2 ^ p) ≤ (2 * ((n : ℝ) / 2 ^ p)) ^ 2 := by nlinarith
    gcongr
  have m1 := moment_half_le (w := 64) (p := p) hn0'
  have m2 := moment_half_ge (w := 64) (p := p) hn0'
  have m3 := moment_quarter_ge (w := 64) (p := p) hn0'
  have m4 := decay_le (w := 64) (p := p) hn0'
  have he := moment_half_pos (w := 64) (p := p) (n := n)
  rw [hu] at g2 g3
  have g2' : G (64 - p + 1) (n / 2 ^ p) ≤ 1.4435 := by
    have : 4 / 3 * ((n : ℝ) / 2 ^ 65) ^ 2 ≤ 4 / 3 * (1 / 64) ^ 2 := by gcongr
    norm_num at this g2 ⊢; linarith
  have g3' : Q (64 - p + 1) (n / 2 ^ p) ≤ 1.44341 := by
    have : 8 / 7 * ((n : ℝ) / 2 ^ 65) ^ 3 ≤ 8 / 7 * (1 / 64) ^ 3 := by gcongr
    norm_num at this g3 ⊢; linarith
  have g1' : 1.4422 ≤ G (64 - p + 1) (n / 2 ^ p) := by norm_num at g1 g4 ⊢; linarith
  have q1' : 1.4403 ≤ Q (64 - p + 1) (n / 2 ^ p) := by norm_num at q1 q2 ⊢; linarith
  have hnb : (49152 : ℝ) ≤ n := by norm_num at hm; linarith
  have hb1 : 8.68 / (n : ℝ) ≤ 8.68 / 49152 := by gcongr
  have hb2 : 4.34 / (n : ℝ) ≤ 4.34 / 49152 := by gcongr
  generalize G (64 - p + 1) (n / 2 ^ p) = g at *
  generalize Q (64 - p + 1) (n / 2 ^ p) = r at *
  have hnl : (n : ℝ) = n / 2 ^ p * 2 ^ p := by field_simp
  have hmu : 1.442 / (2 * ((n : ℝ) / 2 ^ p)) ≤ moment 64 p n (1 / 2) := by
    refine le_trans ?_ m2
    gcongr
    have : 4.34 / (n : ℝ) * g ≤ 4.34 / 49152 * 1.4435 := by
      refine mul_le_mul hb2 g2' ?_ (by norm_num)
      norm_num at g1' ⊢; linarith
    norm_num at this g1' ⊢; linarith
  have hmu' : moment 64 p n (1 / 2) ≤ 1.4435 / (2 * ((n : ℝ) / 2 ^ p)) := m1.trans (by gcongr)
  have hqu : 3 / 4 * 1.44 / ((n : ℝ) / 2 ^ p) ^ 2 ≤ moment 64 p n (1 / 4) := by
    refine le_trans ?_ m3
    gcongr
    have : 8.68 / (n : ℝ) * r ≤ 8.68 / 49152 * 1.44341 := by
      refine mul_le_mul hb1 g3' ?_ (by norm_num)
      norm_num at q1' ⊢; linarith
    norm_num at this q1' ⊢; linarith
  have hl0 : (0 : ℝ) < n / 2 ^ p := by linarith
  constructor
  · rw [relVar, le_sub_iff_add_le, le_div_iff₀ (by positivity)]
    refine le_trans ?_ hqu
    calc (1.072 + 1) * moment 64 p n (1 / 2) ^ 2 ≤ (1.072 + 1) * (1.4435 / (2 * ((n : ℝ) / 2 ^ p))) ^ 2 := by
          gcongr
      _ = ((1.072 + 1) * 1.4435 ^ 2 / 4) / ((n : ℝ) / 2 ^ p) ^ 2 := by field_simp; norm_num
      _ ≤ _ := by gcongr; norm_num
  · refine m4.trans ?_
    rw [le_div_iff₀ hn0]
    have e : r / (2 * 2 ^ p * ((n : ℝ) / 2 ^ p) ^ 2) * n = r / (2 * (n / 2 ^ p)) := by field_simp
    rw [e]
    calc r / (2 * ((n : ℝ) / 2 ^ p)) ≤ 1.003 * 1.442 / (2 * (n / 2 ^ p)) := by
          gcongr; norm_num at g3' ⊢; linarith
      _ = 1.003 * (1.442 / (2 * ((n : ℝ) / 2 ^ p))) := by ring
      _ ≤ _ := by gcongr

/-! ## The third moment -/

theorem harm_mgf_upper (hp : p ≤ w) (hw : w ≤ 64) (hl : Loaded w p n) {κ : ℝ} (hκ : 0 ≤ κ)
    (hκ' : κ / 2 ^ p ≤ 0.064) :
    mean (fun h : Fin n → Fin (2 ^ 64) =>
      Real.exp (κ * (harm w p h / (2 ^ p * moment w p n (1 / 2)) - 1))) ≤
      Real.exp (κ ^ 2 * relVar w p n / (2 * 2 ^ p) + 15.6 * κ ^ 3 / (6 * (2 ^ p) ^ 2)) := by
  have he := moment_half_pos (w := w) (p := p) (n := n)
  have hm0 : (0 : ℝ) < 2 ^ p := by positivity
  set μ := moment w p n (1 / 2) with hμ
  have key := mgf_sum (w := w) (p := p) (n := n) (ψ := fun k => κ / 2 ^ p / μ * ((1 / 2) ^ k - μ))
    (Or.inr fun a b hab => by
      have : (1 / 2 : ℝ) ^ b ≤ (1 / 2) ^ a := pow_le_pow_of_le_one (by norm_num) (by norm_num) hab
      simp only
      gcongr)
    (fun j hj => mgf_upper hp hw hj (κ := κ / 2 ^ p) (by positivity)
      (hl.third j hj (κ / 2 ^ p) (by positivity) hκ'))
  have e : ∀ h : Fin n → Fin (2 ^ 64), ∑ j ∈ range (2 ^ p), κ / 2 ^ p / μ *
      ((1 / 2) ^ reg w p (hashSet w h) j - μ) = κ * (harm w p h / (2 ^ p * μ) - 1) := fun h => by
    rw [← mul_sum, sum_sub_distrib, sum_const, card_range, nsmul_eq_mul, ← harm]
    push_cast
    field_simp
  simp only [e] at key
  refine key.trans (le_of_eq ?_)
  congr 1
  field_simp

theorem exp_ge_cubic (y : ℝ) : 1 + y + y ^ 2 / 2 + y ^ 3 / 6 ≤ Real.exp y := by
  rcases le_total 0 y with h | h
  · have := Real.sum_le_exp_of_nonneg h 4
    simp only [sum_range_succ, range_zero, sum_empty, Nat.factorial] at this
    norm_num at this
    linarith
  · have := altSum_alt 3 (y := -y) (by linarith)
    simp only [altSum, sum_range_succ, range_zero, sum_empty, Nat.factorial] at this
    norm_num at this
    linarith

/-- Cauchy–Schwarz. -/
theorem mean_cauchy (f g : (Fin n → Fin (2 ^ 64)) → ℝ) :
    mean (fun h => f h * g h) ≤ √(mean fun h => f h ^ 2) * √(mean fun h => g h ^ 2) := by
  have hc := card_pos_real n
  have h0 : 0 ≤ mean fun h => f h ^ 2 := by
    unfold mean; exact div_nonneg (Finset.sum_nonneg fun _ _ => sq_nonneg _) hc.le
  rw [← Real.sqrt_mul h0]
  refine Real.le_sqrt_of_sq_le ?_
  have key := Finset.sum_mul_sq_le_sq_mul_sq Finset.univ f g
  unfold mean
  rw [div_pow, div_mul_div_comm, ← sq]
  gcongr

/-- The second moment less the third. -/
theorem third_moment (h1 : 11 ≤ p) (h2 : p ≤ 18) (hn24 : 24 * 2 ^ p < n) (hn : n ≤ 2 ^ 59)
    {Z : (Fin n → Fin (2 ^ 64)) → ℝ} (hZ : ∀ h, Z h = harm 64 p h / (2 ^ p * moment 64 p n (1 / 2)))
    (hone : mean Z = 1) :
    1.0299 / 2 ^ p ≤ mean (fun h => (1 - Z h) ^ 2) ∧
    mean (fun h => (1 - Z h) ^ 2) - 0.0248 / 2 ^ p ≤ mean (fun h => (1 - Z h) ^ 2 + (1 - Z h) ^ 3) := by
  have hm : (2 : ℝ) ^ 11 ≤ 2 ^ p := pow_le_pow_right₀ (by norm_num) h1
  have hm0 : (0 : ℝ) < 2 ^ p := by positivity
  have hn24' : 24 * (2 : ℝ) ^ p < n := by exact_mod_cast hn24
  have hn0 : (0 : ℝ) < n := by linarith
  have he := moment_half_pos (w := 64) (p := p) (n := n)
  obtain ⟨r1, d1⟩ := lower_numbers h1 h2 hn24 hn
  obtain ⟨-, -, r2⟩ := centre_near (w := 64) (n := n) (by omega) h2 (by omega) (by omega) (by omega)
  have r2' : relVar 64 p n ≤ 1.092 := by
    have : 4 / (2 : ℝ) ^ p ≤ 4 / 2 ^ 11 := by gcongr
    norm_num at this r2 ⊢; linarith
  have hv : relVar 64 p n / 2 ^ p - 0.0421 / 2 ^ p ≤ mean (fun h => (1 - Z h) ^ 2) := by
    have key := variance_harm_ge (w := 64) n h1 (by omega) le_rfl
    have e : (fun h => (1 - Z h) ^ 2) = fun h : Fin n → Fin (2 ^ 64) =>
        1 / (2 ^ p * moment 64 p n (1 / 2)) ^ 2 * (harm 64 p h - 2 ^ p * moment 64 p n (1 / 2)) ^ 2 := by
      funext h; rw [hZ]; field_simp; ring
    rw [e, mean_mul, one_div_mul_eq_div, le_div_iff₀ (by positivity)]
    refine le_trans ?_ key
    have d2 : decay 64 p n ^ 2 ≤ (1.003 * moment 64 p n (1 / 2) / n) ^ 2 :=
      pow_le_pow_left₀ decay_nonneg d1 2
    have d3 : 1.001 * n * decay 64 p n ^ 2 ≤ 0.0421 * moment 64 p n (1 / 2) ^ 2 / 2 ^ p := by
      calc 1.001 * n * decay 64 p n ^ 2 ≤ 1.001 * n * (1.003 * moment 64 p n (1 / 2) / n) ^ 2 := by gcongr
        _ = 1.001 * 1.003 ^ 2 * moment 64 p n (1 / 2) ^ 2 / n := by field_simp
        _ ≤ 1.001 * 1.003 ^ 2 * moment 64 p n (1 / 2) ^ 2 / (24 * 2 ^ p) := by gcongr
        _ = 1.001 * 1.003 ^ 2 / 24 * moment 64 p n (1 / 2) ^ 2 / 2 ^ p := by ring
        _ ≤ _ := by gcongr; norm_num
    have d4 : (2 ^ p) ^ 2 * (1.001 * n * decay 64 p n ^ 2) ≤
        (2 ^ p) ^ 2 * (0.0421 * moment 64 p n (1 / 2) ^ 2 / 2 ^ p) := by gcongr
    refine le_trans (le_of_eq ?_) (sub_le_sub_left d4 _)
    rw [relVar]; field_simp
  refine ⟨le_trans ?_ hv, ?_⟩
  · rw [← sub_div]; gcongr; norm_num at r1 ⊢; linarith
  have hl := loaded_high (w := 64) (by omega : 8 ≤ p) h2 (by omega) le_rfl (by omega : 5 * 2 ^ p ≤ n) (by omega)
  have key := harm_mgf_upper (by omega) le_rfl hl (κ := 20) (by norm_num) (by
    calc (20 : ℝ) / 2 ^ p ≤ 20 / 2 ^ 11 := by gcongr
      _ ≤ _ := by norm_num)
  simp only [← hZ] at key
  set v := mean (fun h => (1 - Z h) ^ 2) with hvdef
  have hB : (20 : ℝ) ^ 2 * relVar 64 p n / (2 * 2 ^ p) + 15.6 * 20 ^ 3 / (6 * (2 ^ p) ^ 2) ≤
      (200 * relVar 64 p n + 10.157) / 2 ^ p := by
    have : (15.6 * 20 ^ 3 / (6 * (2 ^ p) ^ 2) : ℝ) ≤ 10.157 / 2 ^ p := by
      calc (15.6 * 20 ^ 3 / (6 * (2 ^ p) ^ 2) : ℝ) = 20800 / 2 ^ p / 2 ^ p := by field_simp; norm_num
        _ ≤ 20800 / 2 ^ 11 / 2 ^ p := by gcongr
        _ ≤ _ := by gcongr; norm_num
    rw [add_div]
    refine add_le_add (le_of_eq ?_) this
    field_simp; norm_num
  have key2 := key.trans (Real.exp_le_exp.2 hB)
  set B := (200 * relVar 64 p n + 10.157) / 2 ^ p with hBdef
  have hB0 : 0 ≤ B := by
    rw [hBdef]; refine div_nonneg ?_ hm0.le; norm_num at r1 ⊢; linarith
  have hB1 : B ≤ 229 / 2 ^ p := by rw [hBdef]; gcongr; norm_num at r2' ⊢; linarith
  have hB2 : B ≤ 0.112 := hB1.trans (by
    calc (229 : ℝ) / 2 ^ p ≤ 229 / 2 ^ 11 := by gcongr
      _ ≤ _ := by norm_num)
  have hexp : Real.exp B ≤ 1.12 := by
    have := exp_cubic hB0
    have h3 : B ^ 3 / 6 ≤ 0.112 ^ 3 / 6 := by gcongr
    have h4 : B ^ 2 / 2 ≤ 0.112 ^ 2 / 2 := by gcongr
    have h5 := Real.exp_pos B
    have h6 : B ^ 3 / 6 * Real.exp B ≤ 0.112 ^ 3 / 6 * Real.exp B := by gcongr
    norm_num at h3 h4 h6 hB2 ⊢
    linarith
  have hexp2 : Real.exp B ≤ 1 + B + 14.36 / 2 ^ p := by
    have h3 := exp_quad hB0
    have h4 : B ^ 2 / 2 * Real.exp B ≤ 14.36 / 2 ^ p := by
      calc B ^ 2 / 2 * Real.exp B ≤ (229 / 2 ^ p) ^ 2 / 2 * 1.12 := by gcongr
        _ = 229 ^ 2 * 1.12 / 2 / 2 ^ p / 2 ^ p := by field_simp
        _ ≤ 229 ^ 2 * 1.12 / 2 / 2 ^ 11 / 2 ^ p := by gcongr
        _ ≤ _ := by gcongr; norm_num
    linarith
  have hlow : 1 + 200 * v - 4000 / 3 * mean (fun h => (1 - Z h) ^ 3) ≤
      mean (fun h => Real.exp (20 * (Z h - 1))) := by
    have : mean (fun h => (((1 + 20 * Z h) - 20) + 200 * (1 - Z h) ^ 2) - 4000 / 3 * (1 - Z h) ^ 3) ≤
        mean (fun h => Real.exp (20 * (Z h - 1))) := by
      refine mean_mono fun h => le_trans (le_of_eq ?_) (exp_ge_cubic _)
      ring
    rw [mean_sub, mean_add, mean_sub, mean_add, mean_const, mean_mul, mean_mul, mean_mul, mean_const,
      hone, ← hvdef] at this
    linarith
  rw [mean_add, ← hvdef]
  have e1 : B - 200 * (relVar 64 p n / 2 ^ p - 0.0421 / 2 ^ p) = 18.577 / 2 ^ p := by
    rw [hBdef]; field_simp; ring
  have e2 : 18.577 / (2 : ℝ) ^ p + 14.36 / 2 ^ p ≤ 4000 / 3 * (0.0248 / 2 ^ p) := by
    rw [← add_div, ← mul_div_assoc]; gcongr; norm_num
  linarith

/-- The estimate times the deviation of the harmonic sum. -/
theorem sharp_below (hln : LnSpec ln) (v : Search) (h1 : 10 ≤ p) (h2 : p ≤ 18) (hn24 : 24 * 2 ^ p < n)
    (hn : n ≤ 2 ^ 59) {y : (Fin n → Fin (2 ^ 64)) → ℚ}
    (hy : ∀ h, plusCount ln (Plus.biasOf v) p (hashSet 64 h) = fin (y h)) (h : Fin n → Fin (2 ^ 64))
    {z : ℝ} (hzd : harm 64 p h / (2 ^ p * moment 64 p n (1 / 2)) = z) (hz : 0 < z) :
    (1 - 1 / 2 ^ 29) * centre 64 p n * ((1 - z) ^ 2 + (1 - z) ^ 3) -
      (0.00066 + 1.1 / 2 ^ p) * n * |1 - z| ≤ ((y h : ℝ) - n) * (1 - z) := by
  have hm : (2 : ℝ) ^ 10 ≤ 2 ^ p := pow_le_pow_right₀ (by norm_num) h1
  have hm0 : (0 : ℝ) < 2 ^ p := by positivity
  have hn5 : 5 * 2 ^ p ≤ n := by omega
  obtain ⟨c1, c2, -⟩ := centre_near (w := 64) (by omega) h2 (by omega) hn5 (by omega)
  have hC := centre_pos (w := 64) (n := n) (p := p) (by omega) h2
  have hn24' : 24 * (2 : ℝ) ^ p < n := by exact_mod_cast hn24
  have hn0 : (0 : ℝ) < n := by linarith
  have hw4 : 1.1 / (2 : ℝ) ^ p ≤ 1.1 / 2 ^ 10 := by gcongr
  have hr := raw_ratio (w := 64) (n := n) (p := p) (by omega) h2 (by omega) h
  rw [hzd] at hr
  by_cases c : 5 * (2 : ℚ) ^ p < rawQ p (hsum 0 (regs 64 p (hashSet 64 h)))
  · have e : y h = rawQ p (hsum 0 (regs 64 p (hashSet 64 h))) := fin.inj
      ((hy h).symm.trans (plusCount_raw hln v (by omega) h2 (hashSet_lt h) c))
    rw [e]
    generalize (rawQ p (hsum 0 (regs 64 p (hashSet 64 h))) : ℝ) = Y at *
    have hCn : |centre 64 p n - n| ≤ (0.00065 + 1.1 / 2 ^ p) * n := by
      have e6 : 0 ≤ 1.1 / (2 : ℝ) ^ p * n := by positivity
      have e4 : (1 - 0.00065 - 1.1 / 2 ^ p) * (n : ℝ) = n - 0.00065 * n - 1.1 / 2 ^ p * n := by ring
      rw [e4] at c1
      rw [abs_le, add_mul]
      generalize 1.1 / (2 : ℝ) ^ p * n = ω at *
      norm_num at c1 c2 ⊢
      constructor <;> linarith
    set C := centre 64 p n with hCdef
    have i1 : -((0.00065 + 1.1 / 2 ^ p) * n * |1 - z|) ≤ (C - n) * (1 - z) := by
      refine le_trans (neg_le_neg ?_) (neg_abs_le _)
      rw [abs_mul]; gcongr
    have i2 : -(C * (1 / z) / 2 ^ 32 * |1 - z|) ≤ (Y - C * (1 / z)) * (1 - z) := by
      refine le_trans (neg_le_neg ?_) (neg_abs_le _)
      rw [abs_mul]; gcongr
    have i3 : C * (1 / z) / 2 ^ 32 * |1 - z| ≤
        1 / 2 ^ 29 * (C * (1 - z) ^ 2 / z) + 0.00001 * n * |1 - z| := by
      have ha := abs_nonneg (1 - z)
      have p1 : 0 ≤ 1 / 2 ^ 29 * (C * (1 - z) ^ 2 / z) := by positivity
      have p2 : 0 ≤ 0.00001 * (n : ℝ) * |1 - z| := by positivity
      rcases le_total 0.8 z with hz8 | hz8
      · have hinv : 1 / z ≤ 1.25 := by
          rw [div_le_iff₀ hz]; norm_num at hz8 ⊢; linarith
        have : C * (1 / z) / 2 ^ 32 ≤ 0.00001 * n := by
          have : C * (1 / z) ≤ 1.0006 * n * 1.25 := by gcongr
          rw [div_le_iff₀ (by positivity)]
          norm_num at this ⊢; linarith
        have : C * (1 / z) / 2 ^ 32 * |1 - z| ≤ 0.00001 * n * |1 - z| := by gcongr
        linarith
      · have hx : 0.2 ≤ |1 - z| := by
          refine le_trans ?_ (le_abs_self _)
          norm_num at hz8 ⊢; linarith
        have e1 : 1 / 2 ^ 29 * (C * (1 - z) ^ 2 / z) =
            C * (1 / z) / 2 ^ 32 * |1 - z| * (8 * |1 - z|) := by
          rw [← sq_abs (1 - z)]; ring
        have : C * (1 / z) / 2 ^ 32 * |1 - z| * 1 ≤ C * (1 / z) / 2 ^ 32 * |1 - z| * (8 * |1 - z|) := by
          gcongr; norm_num at hx ⊢; linarith
        linarith
    have i4 : (1 - z) ^ 2 + (1 - z) ^ 3 ≤ (1 - z) ^ 2 / z := by
      rw [le_div_iff₀ hz]
      have : 0 ≤ ((1 - z) ^ 2) ^ 2 := sq_nonneg _
      nlinarith
    have i5 : (1 - 1 / 2 ^ 29) * C * ((1 - z) ^ 2 + (1 - z) ^ 3) ≤
        (1 - 1 / 2 ^ 29) * C * ((1 - z) ^ 2 / z) :=
      mul_le_mul_of_nonneg_left i4 (mul_nonneg (by norm_num) hC.le)
    have e1 : (Y - n) * (1 - z) = (Y - C * (1 / z)) * (1 - z) + C * (1 - z) ^ 2 / z + (C - n) * (1 - z) := by
      field_simp; ring
    have e2 : (0.00066 + 1.1 / 2 ^ p) * n * |1 - z| =
        (0.00065 + 1.1 / 2 ^ p) * n * |1 - z| + 0.00001 * n * |1 - z| := by ring
    have e3 : (1 - 1 / 2 ^ 29) * C * ((1 - z) ^ 2 / z) =
        C * (1 - z) ^ 2 / z - 1 / 2 ^ 29 * (C * (1 - z) ^ 2 / z) := by ring
    rw [e1, e2]
    linarith
  · rw [not_lt] at c
    obtain ⟨Y, k1, k2, _, k3⟩ := plusCount_range hln v (p := p) (by omega) h2 (S := hashSet 64 h)
    have e : y h = Y := fin.inj ((hy h).symm.trans k1)
    rw [e]
    have k4 : Y ≤ 6 * 2 ^ p + 3 := by
      rcases k3 with k3 | k3
      · exact k3
      · have : (0 : ℚ) < 2 ^ p := by positivity
        rw [k3]; linarith
    have k5 := (Rat.cast_le (K := ℝ)).2 k4
    push_cast at k5
    have c' := (Rat.cast_le (K := ℝ)).2 c
    push_cast at c'
    have hbig : (2 : ℝ) ≤ z := by
      have h3 : centre 64 p n * (1 / z) ≤ 5.001 * 2 ^ p := by
        have r1 := (abs_le.1 hr).1
        have : 0 < centre 64 p n * (1 / z) := by positivity
        generalize centre 64 p n * (1 / z) = x at *
        norm_num at r1 ⊢
        linarith
      have h4 : 0.99 * (n : ℝ) ≤ centre 64 p n := by
        refine le_trans (mul_le_mul_of_nonneg_right ?_ hn0.le) c1
        norm_num at hw4 ⊢; linarith
      rw [mul_one_div, div_le_iff₀ hz] at h3
      by_contra hcon
      rw [not_le] at hcon
      have : 5.001 * 2 ^ p * z ≤ 5.001 * 2 ^ p * 2 := by gcongr
      clear hr c1 c2
      generalize centre 64 p n = c at *
      generalize 5.001 * (2 : ℝ) ^ p * z = d at *
      generalize (2 : ℝ) ^ p = m at *
      norm_num at h3 h4 this hn24'
      linarith
    have j1 : 0 ≤ ((Y : ℝ) - n) * (1 - z) := by
      norm_num at hm
      exact mul_nonneg_of_nonpos_of_nonpos (by linarith) (by linarith)
    have j2 : (1 - 1 / 2 ^ 29) * centre 64 p n * ((1 - z) ^ 2 + (1 - z) ^ 3) ≤ 0 := by
      refine mul_nonpos_of_nonneg_of_nonpos (mul_nonneg (by norm_num) hC.le) ?_
      have := sq_nonneg (1 - z)
      nlinarith
    have j3 : 0 ≤ (0.00066 + 1.1 / 2 ^ p) * (n : ℝ) * |1 - z| := by positivity
    linarith

/-- The mean square of the error from below. -/
theorem sharp_square_ge (hln : LnSpec ln) (v : Search) (h1 : 11 ≤ p) (h2 : p ≤ 18) (hn24 : 24 * 2 ^ p < n)
    (hn : n ≤ 2 ^ 59) {y : (Fin n → Fin (2 ^ 64)) → ℚ}
    (hy : ∀ h, plusCount ln (Plus.biasOf v) p (hashSet 64 h) = fin (y h)) :
    (0.98 / √(2 ^ p) - (0.00066 + 1.1 / 2 ^ p)) * n ≤ √(mean fun h => ((y h : ℝ) - n) ^ 2) := by
  have H := ratio_plus (δ := 0.1) hln v (by omega) h2 (by omega) hn (by norm_num) (by norm_num) hy
  obtain ⟨Z, hZ⟩ : ∃ Z, Z = fun h : Fin n → Fin (2 ^ 64) => harm 64 p h / (2 ^ p * moment 64 p n (1 / 2)) :=
    ⟨_, rfl⟩
  have hZ' : ∀ h, harm 64 p h / (2 ^ p * moment 64 p n (1 / 2)) = Z h := fun h => by rw [hZ]
  have hone := H.one
  have hpos := H.pos
  simp only [hZ'] at hone hpos
  obtain ⟨t1, t2⟩ := third_moment h1 h2 hn24 hn (fun h => (hZ' h).symm) hone
  have hpt := mean_mono fun h => sharp_below hln v (by omega) h2 hn24 hn hy h (hZ' h) (hpos h)
  rw [mean_sub, mean_mul, mean_mul] at hpt
  have hca := mean_cauchy (fun h => (y h : ℝ) - n) (fun h => 1 - Z h)
  have hm : (2 : ℝ) ^ 11 ≤ 2 ^ p := pow_le_pow_right₀ (by norm_num) h1
  have hm0 : (0 : ℝ) < 2 ^ p := by positivity
  obtain ⟨c1, c2, -⟩ := centre_near (w := 64) (n := n) (by omega) h2 (by omega) (by omega) (by omega)
  have hC := centre_pos (w := 64) (n := n) (p := p) (by omega) h2
  have hn0 : (0 : ℝ) < n := by exact_mod_cast (by omega : 0 < n)
  have hs : 0 < √((2 : ℝ) ^ p) := Real.sqrt_pos.2 hm0
  have hs2 : √((2 : ℝ) ^ p) ^ 2 = 2 ^ p := Real.sq_sqrt hm0.le
  have hv0 : 0 < mean fun h => (1 - Z h) ^ 2 := lt_of_lt_of_le (by positivity) t1
  have hvs := Real.sq_sqrt hv0.le
  have hσ := Real.sqrt_pos.2 hv0
  have habs := mean_abs_le (f := fun h => 1 - Z h) hσ hvs.ge
  have hC' : 0.9988 * (n : ℝ) ≤ (1 - 1 / 2 ^ 29) * centre 64 p n := by
    have hw : 1.1 / (2 : ℝ) ^ p ≤ 1.1 / 2 ^ 11 := by gcongr
    have : 0.99881 * (n : ℝ) ≤ centre 64 p n := by
      refine le_trans (mul_le_mul_of_nonneg_right ?_ hn0.le) c1
      norm_num at hw ⊢; linarith
    norm_num at this ⊢; linarith
  set A := √(mean fun h => ((y h : ℝ) - n) ^ 2) with hA
  set σ := √(mean fun h => (1 - Z h) ^ 2) with hσd
  rw [← hvs] at t1 t2
  set b : ℝ := 0.00066 + 1.1 / 2 ^ p with hb
  have hb0 : 0 ≤ b := by positivity
  have hsσ : 1.0148 ≤ √(2 ^ p) * σ := by
    rw [div_le_iff₀ hm0, ← hs2] at t1
    have : 1.0148 ^ 2 ≤ (√(2 ^ p) * σ) ^ 2 := by rw [mul_pow]; norm_num at t1 ⊢; linarith
    exact le_of_sq_le_sq this (by positivity)
  have hgap : 0.99 / √(2 ^ p) * σ ≤ σ ^ 2 - 0.0248 / 2 ^ p := by
    have hs2' : 0.0248 / (2 : ℝ) ^ p = 0.0248 / √(2 ^ p) ^ 2 := by rw [hs2]
    rw [hs2']
    clear hs2 hs2'
    generalize √((2 : ℝ) ^ p) = s at *
    have e : σ ^ 2 - 0.0248 / s ^ 2 - 0.99 / s * σ = ((s * σ) ^ 2 - 0.0248 - 0.99 * (s * σ)) / s ^ 2 := by
      field_simp
    have : 0 ≤ ((s * σ) ^ 2 - 0.0248 - 0.99 * (s * σ)) / s ^ 2 := by
      refine div_nonneg ?_ (by positivity)
      generalize s * σ = x at *
      norm_num at hsσ ⊢
      nlinarith
    linarith
  have hmain : 0.9988 * n * (0.99 / √(2 ^ p) * σ) - b * n * σ ≤ A * σ := by
    have k1 : 0.9988 * n * (0.99 / √(2 ^ p) * σ) ≤ (1 - 1 / 2 ^ 29) * centre 64 p n *
        mean (fun h => (1 - Z h) ^ 2 + (1 - Z h) ^ 3) :=
      mul_le_mul hC' (hgap.trans t2) (by positivity) (mul_nonneg (by norm_num) hC.le)
    have k2 : b * n * mean (fun h => |1 - Z h|) ≤ b * n * σ := by gcongr
    linarith
  have hfin : (0.9988 * n * (0.99 / √(2 ^ p)) - b * n) * σ ≤ A * σ := by
    refine le_trans (le_of_eq ?_) hmain; ring
  have h9 := le_of_mul_le_mul_right hfin hσ
  refine le_trans ?_ h9
  rw [sub_mul]
  refine sub_le_sub_right ?_ _
  rw [show 0.9988 * (n : ℝ) * (0.99 / √(2 ^ p)) = 0.9988 * 0.99 / √(2 ^ p) * n by ring]
  gcongr; norm_num

end HLL
