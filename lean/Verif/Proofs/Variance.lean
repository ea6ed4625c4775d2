import Verif.Proofs.Average
import Mathlib.Algebra.Order.Chebyshev
import Mathlib.Tactic.Linarith
import Mathlib.Tactic.Ring

/-! # The variance of the number of empty registers, and Chebyshev's inequality for it -/

namespace HLL
open Spec

/-- The zero registers of an assignment, as a sum of indicators. -/
theorem zeros_eq_sum {w p n : Nat} (h : Fin n → Fin (2 ^ 64)) : zeros w p (hashSet w h) =
    ∑ j ∈ Finset.range (2 ^ p), if ∀ i, bucket w p ((h i : Nat) % 2 ^ w) ≠ j then 1 else 0 := by
  rw [zeros, Finset.card_filter]
  refine Finset.sum_congr rfl fun j _ => ?_
  congr 1
  rw [reg_eq_zero_iff, hashSet]
  simp

/-- The number of assignments leaving registers `j` and `k` empty. -/
theorem card_avoid_two {w p n j k : Nat} (hp : p ≤ w) (hw : w ≤ 64) (hj : j < 2 ^ p)
    (hk : k < 2 ^ p) (hjk : j ≠ k) :
    (Finset.univ.filter fun h : Fin n → Fin (2 ^ 64) =>
      (∀ i, bucket w p ((h i : Nat) % 2 ^ w) ≠ j) ∧ ∀ i, bucket w p ((h i : Nat) % 2 ^ w) ≠ k).card
      = (2 ^ 64 - 2 * 2 ^ (64 - p)) ^ n := by
  have h3 : (Finset.univ.filter fun h : Fin n → Fin (2 ^ 64) =>
      (∀ i, bucket w p ((h i : Nat) % 2 ^ w) ≠ j) ∧ ∀ i, bucket w p ((h i : Nat) % 2 ^ w) ≠ k) =
      Fintype.piFinset fun _ : Fin n =>
        ((Finset.univ.filter fun x : Fin (2 ^ 64) => bucket w p ((x : Nat) % 2 ^ w) = j) ∪
          (Finset.univ.filter fun x : Fin (2 ^ 64) => bucket w p ((x : Nat) % 2 ^ w) = k))ᶜ := by
    ext h
    simp [Fintype.mem_piFinset, forall_and]
  rw [h3, Fintype.card_piFinset_const, Finset.card_compl, Finset.card_union_of_disjoint,
    card_bucket hp hw hj, card_bucket hp hw hk, Fintype.card_fin, two_mul]
  rw [Finset.disjoint_filter]
  intro x _ h1 h2
  exact hjk (h1.symm.trans h2)

/-- The number of assignments leaving register `j` empty. -/
theorem card_avoid {w p n j : Nat} (hp : p ≤ w) (hw : w ≤ 64) (hj : j < 2 ^ p) :
    (Finset.univ.filter fun h : Fin n → Fin (2 ^ 64) =>
      ∀ i, bucket w p ((h i : Nat) % 2 ^ w) ≠ j).card = (2 ^ 64 - 2 ^ (64 - p)) ^ n := by
  have h3 : (Finset.univ.filter fun h : Fin n → Fin (2 ^ 64) =>
      ∀ i, bucket w p ((h i : Nat) % 2 ^ w) ≠ j) =
      Fintype.piFinset fun _ : Fin n =>
        (Finset.univ.filter fun x : Fin (2 ^ 64) => bucket w p ((x : Nat) % 2 ^ w) = j)ᶜ := by
    ext h
    simp [Fintype.mem_piFinset]
  rw [h3, Fintype.card_piFinset_const, Finset.card_compl, card_bucket hp hw hj, Fintype.card_fin]

/-- The squared number of zero registers, summed over all assignments. -/
theorem sum_zeros_sq {w p : Nat} (hp : p ≤ w) (hw : w ≤ 64) (n : Nat) :
    ∑ h : Fin n → Fin (2 ^ 64), zeros w p (hashSet w h) ^ 2 =
      2 ^ p * (2 ^ 64 - 2 ^ (64 - p)) ^ n +
      2 ^ p * (2 ^ p - 1) * (2 ^ 64 - 2 * 2 ^ (64 - p)) ^ n := by
  have h1 : ∀ h : Fin n → Fin (2 ^ 64), zeros w p (hashSet w h) ^ 2 =
      ∑ j ∈ Finset.range (2 ^ p), ∑ k ∈ Finset.range (2 ^ p),
        if (∀ i, bucket w p ((h i : Nat) % 2 ^ w) ≠ j) ∧
          ∀ i, bucket w p ((h i : Nat) % 2 ^ w) ≠ k then 1 else 0 := by
    intro h
    rw [sq, zeros_eq_sum, Finset.sum_mul_sum]
    refine Finset.sum_congr rfl fun j _ => Finset.sum_congr rfl fun k _ => ?_
    rw [ite_and]
    split_ifs <;> simp
  rw [Finset.sum_congr rfl fun h _ => h1 h, Finset.sum_comm]
  have h2 : ∀ j ∈ Finset.range (2 ^ p),
      (∑ h : Fin n → Fin (2 ^ 64), ∑ k ∈ Finset.range (2 ^ p),
        if (∀ i, bucket w p ((h i : Nat) % 2 ^ w) ≠ j) ∧
          ∀ i, bucket w p ((h i : Nat) % 2 ^ w) ≠ k then 1 else 0) =
      (2 ^ 64 - 2 ^ (64 - p)) ^ n + (2 ^ p - 1) * (2 ^ 64 - 2 * 2 ^ (64 - p)) ^ n := by
    intro j hj
    rw [Finset.sum_comm]
    rw [← Finset.add_sum_erase _ _ hj]
    rw [Finset.mem_range] at hj
    congr 1
    · simp only [and_self]
      rw [← Finset.card_filter, card_avoid hp hw hj]
    · have : ∀ k ∈ (Finset.range (2 ^ p)).erase j, (∑ h : Fin n → Fin (2 ^ 64),
          if (∀ i, bucket w p ((h i : Nat) % 2 ^ w) ≠ j) ∧
            ∀ i, bucket w p ((h i : Nat) % 2 ^ w) ≠ k then 1 else 0) =
          (2 ^ 64 - 2 * 2 ^ (64 - p)) ^ n := by
        intro k hk
        rw [Finset.mem_erase, Finset.mem_range] at hk
        rw [← Finset.card_filter, card_avoid_two hp hw hj hk.2 (Ne.symm hk.1)]
      rw [Finset.sum_congr rfl this, Finset.sum_const, Finset.card_erase_of_mem
        (Finset.mem_range.2 hj), Finset.card_range, smul_eq_mul]
  rw [Finset.sum_congr rfl h2, Finset.sum_const, Finset.card_range, smul_eq_mul]
  ring

/-- The average of the squared number of zero registers. -/
theorem average_zeros_sq {w p : Nat} (hp1 : 1 ≤ p) (hp : p ≤ w) (hw : w ≤ 64) (n : Nat) :
    (∑ h : Fin n → Fin (2 ^ 64), (zeros w p (hashSet w h) : ℝ) ^ 2) /
      Fintype.card (Fin n → Fin (2 ^ 64)) =
      2 ^ p * (1 - 1 / 2 ^ p) ^ n + 2 ^ p * (2 ^ p - 1) * (1 - 2 / 2 ^ p) ^ n := by
  have e : (∑ h : Fin n → Fin (2 ^ 64), (zeros w p (hashSet w h) : ℝ) ^ 2) =
      ((∑ h : Fin n → Fin (2 ^ 64), zeros w p (hashSet w h) ^ 2 : ℕ) : ℝ) := by push_cast; rfl
  have hN : ((2 : ℕ) ^ 64 : ℕ) = (2 : ℝ) ^ 64 := by norm_num
  have hcard : (Fintype.card (Fin n → Fin (2 ^ 64)) : ℝ) = (2 ^ 64 : ℝ) ^ n := by
    rw [Fintype.card_fun, Fintype.card_fin, Fintype.card_fin, Nat.cast_pow, hN]
  have h1 : 2 ^ (64 - p) ≤ 2 ^ 64 := Nat.pow_le_pow_right (by norm_num) (by omega)
  have h1' : 2 * 2 ^ (64 - p) ≤ 2 ^ 64 := by
    rw [← pow_succ']; exact Nat.pow_le_pow_right (by norm_num) (by omega)
  have h2 : (2 : ℝ) ^ 64 = 2 ^ p * 2 ^ (64 - p) := by rw [← pow_add]; congr 1; omega
  rw [e, sum_zeros_sq hp hw, hcard, Nat.cast_add, Nat.cast_mul, Nat.cast_mul, Nat.cast_mul,
    Nat.cast_pow (2 ^ 64 - _), Nat.cast_pow (2 ^ 64 - _), Nat.cast_sub h1, Nat.cast_sub h1',
    Nat.cast_sub Nat.one_le_two_pow, Nat.cast_mul, hN]
  simp only [Nat.cast_pow, Nat.cast_ofNat, Nat.cast_one]
  rw [add_div, mul_div_assoc, mul_div_assoc, ← div_pow, ← div_pow, h2]
  congr 3 <;> field_simp

/-- The average squared distance of the number of zero registers from its average. -/
theorem variance_zeros {w p : Nat} (hp1 : 1 ≤ p) (hp : p ≤ w) (hw : w ≤ 64) (n : Nat) :
    (∑ h : Fin n → Fin (2 ^ 64),
        ((zeros w p (hashSet w h) : ℝ) - 2 ^ p * (1 - 1 / 2 ^ p) ^ n) ^ (2 : ℕ)) /
      (Fintype.card (Fin n → Fin (2 ^ 64)) : ℝ) =
      (2 : ℝ) ^ p * (1 - 1 / 2 ^ p) ^ n + 2 ^ p * (2 ^ p - 1) * (1 - 2 / 2 ^ p) ^ n -
        (2 ^ p * (1 - 1 / 2 ^ p) ^ n) ^ 2 := by
  have h1 := average_zeros hp hw n
  have h2 := average_zeros_sq hp1 hp hw n
  have hc : (0 : ℝ) < Fintype.card (Fin n → Fin (2 ^ 64)) := by
    exact_mod_cast Fintype.card_pos
  rw [← h2]
  generalize hμ : (2 : ℝ) ^ p * (1 - 1 / 2 ^ p) ^ n = μ at h1 ⊢
  rw [div_eq_iff hc.ne'] at h1
  rw [div_eq_iff hc.ne', sub_mul, div_mul_cancel₀ _ hc.ne']
  have : ∀ h : Fin n → Fin (2 ^ 64), ((zeros w p (hashSet w h) : ℝ) - μ) ^ 2 =
      (zeros w p (hashSet w h) : ℝ) ^ 2 - 2 * μ * (zeros w p (hashSet w h) : ℝ) + μ ^ 2 := by
    intro h; ring
  rw [Finset.sum_congr rfl fun h _ => this h, Finset.sum_add_distrib, Finset.sum_sub_distrib,
    ← Finset.mul_sum, h1, Finset.sum_const, Finset.card_univ, nsmul_eq_mul]
  ring

theorem variance_le {p : Nat} (hp1 : 1 ≤ p) (n : Nat) :
    (2 : ℝ) ^ p * (1 - 1 / 2 ^ p) ^ n + 2 ^ p * (2 ^ p - 1) * (1 - 2 / 2 ^ p) ^ n -
        (2 ^ p * (1 - 1 / 2 ^ p) ^ n) ^ 2 ≤
      2 ^ p * ((1 - 1 / 2 ^ p) ^ n * (1 - (1 - 1 / 2 ^ p) ^ n)) := by
  have hm : (2 : ℝ) ≤ 2 ^ p := by
    calc (2 : ℝ) = 2 ^ 1 := by norm_num
      _ ≤ 2 ^ p := pow_le_pow_right₀ (by norm_num) hp1
  generalize (2 : ℝ) ^ p = m at *
  have hm0 : (0 : ℝ) < m := by linarith
  have h1 : (0 : ℝ) ≤ 1 - 2 / m := by
    rw [sub_nonneg, div_le_one hm0]; exact hm
  have h2 : 1 - 2 / m ≤ (1 - 1 / m) ^ 2 := by
    have : (1 - 1 / m) ^ 2 - (1 - 2 / m) = (1 / m) ^ 2 := by field_simp; ring
    nlinarith [sq_nonneg (1 / m)]
  have h3 : (1 - 2 / m) ^ n ≤ ((1 - 1 / m) ^ n) ^ 2 := by
    calc (1 - 2 / m) ^ n ≤ ((1 - 1 / m) ^ 2) ^ n := pow_le_pow_left₀ h1 h2 n
      _ = ((1 - 1 / m) ^ n) ^ 2 := by rw [← pow_mul, ← pow_mul, mul_comm]
  generalize (1 - 1 / m) ^ n = q at *
  have h4 : m * (m - 1) * (1 - 2 / m) ^ n ≤ m * (m - 1) * q ^ 2 :=
    mul_le_mul_of_nonneg_left h3 (mul_nonneg hm0.le (by linarith))
  nlinarith

/-- **Chebyshev.** The fraction of the assignments whose number of zero registers is at least `t`
away from the average. -/
theorem chebyshev_zeros {w p : Nat} (hp1 : 1 ≤ p) (hp : p ≤ w) (hw : w ≤ 64) (n : Nat) {t : ℝ}
    (ht : 0 < t) :
    ((Finset.univ.filter fun h : Fin n → Fin (2 ^ 64) =>
        t ≤ |(zeros w p (hashSet w h) : ℝ) - 2 ^ p * (1 - 1 / 2 ^ p) ^ n|).card : ℝ) /
      Fintype.card (Fin n → Fin (2 ^ 64)) ≤
      2 ^ p * ((1 - 1 / 2 ^ p) ^ n * (1 - (1 - 1 / 2 ^ p) ^ n)) / t ^ 2 := by
  have hv := (variance_zeros hp1 hp hw n).le.trans (variance_le hp1 n)
  have hc : (0 : ℝ) < Fintype.card (Fin n → Fin (2 ^ 64)) := by
    exact_mod_cast Fintype.card_pos
  generalize (2 : ℝ) ^ p * (1 - 1 / 2 ^ p) ^ n = μ at *
  rw [le_div_iff₀ (by positivity), div_mul_eq_mul_div]
  refine le_trans ?_ hv
  rw [div_le_div_iff_of_pos_right hc]
  set B := Finset.univ.filter fun h : Fin n → Fin (2 ^ 64) =>
    t ≤ |(zeros w p (hashSet w h) : ℝ) - μ| with hB
  calc (B.card : ℝ) * t ^ 2 = ∑ _h ∈ B, t ^ 2 := by rw [Finset.sum_const, nsmul_eq_mul]
    _ ≤ ∑ h ∈ B, ((zeros w p (hashSet w h) : ℝ) - μ) ^ 2 := by
        refine Finset.sum_le_sum fun h hh => ?_
        rw [hB, Finset.mem_filter] at hh
        rw [← sq_abs ((zeros w p (hashSet w h) : ℝ) - μ)]
        exact pow_le_pow_left₀ ht.le hh.2 2
    _ ≤ _ := Finset.sum_le_sum_of_subset_of_nonneg (Finset.subset_univ _)
        fun _ _ _ => sq_nonneg _

end HLL
