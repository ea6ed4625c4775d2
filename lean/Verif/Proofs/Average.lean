import Verif.Proofs.SpecLemmas
import Mathlib.Algebra.BigOperators.Ring.Finset
import Mathlib.Data.Fintype.BigOperators
import Mathlib.Data.Real.Basic
import Mathlib.Tactic.FieldSimp
import Mathlib.Tactic.Positivity

/-!
# The average number of empty registers

Counting all assignments of 64-bit hashes to `n` values.
-/

namespace HLL
open Spec

/-- The set of hashes (reduced to `w` bits) of an assignment. -/
def hashSet (w : Nat) {n : Nat} (h : Fin n → Fin (2 ^ 64)) : Finset Nat :=
  Finset.univ.image fun i => (h i : Nat) % 2 ^ w

theorem reg_eq_zero_iff (w p : Nat) (S : Finset Nat) (j : Nat) :
    reg w p S j = 0 ↔ ∀ x ∈ S, bucket w p x ≠ j := by
  unfold reg
  rw [← Nat.bot_eq_zero, Finset.sup_eq_bot_iff]
  constructor
  · intro h x hx hb
    have := h x (Finset.mem_filter.2 ⟨hx, hb⟩)
    have h1 := rank_pos w p x
    rw [Nat.bot_eq_zero] at this
    omega
  · intro h x hx
    rw [Finset.mem_filter] at hx
    exact absurd hx.2 (h x hx.1)

/-- The number of 64-bit hashes that fall into bucket `j`. -/
theorem card_bucket {w p j : Nat} (hp : p ≤ w) (hw : w ≤ 64) (hj : j < 2 ^ p) :
    (Finset.univ.filter fun x : Fin (2 ^ 64) => bucket w p ((x : Nat) % 2 ^ w) = j).card =
      2 ^ (64 - p) := by
  have hA : (2 : Nat) ^ 64 = 2 ^ (64 - w) * 2 ^ w := by rw [← pow_add]; congr 1; omega
  have hB : (2 : Nat) ^ w = 2 ^ p * 2 ^ (w - p) := by rw [← pow_add]; congr 1; omega
  have hC : (2 : Nat) ^ (64 - p) = 2 ^ (64 - w) * 2 ^ (w - p) := by rw [← pow_add]; congr 1; omega
  rw [hC, ← Finset.card_range (2 ^ (64 - w)), ← Finset.card_range (2 ^ (w - p)),
    ← Finset.card_product]
  have hBp : 0 < 2 ^ (w - p) := Nat.two_pow_pos _
  have hWp : 0 < 2 ^ w := Nat.two_pow_pos _
  have hlow : ∀ b < 2 ^ (w - p), j * 2 ^ (w - p) + b < 2 ^ w := by
    intro b hb
    calc j * 2 ^ (w - p) + b < (j + 1) * 2 ^ (w - p) := by rw [add_mul, one_mul]; omega
      _ ≤ 2 ^ w := by rw [hB]; exact Nat.mul_le_mul_right _ hj
  have hall : ∀ a < 2 ^ (64 - w), ∀ b < 2 ^ (w - p),
      a * 2 ^ w + (j * 2 ^ (w - p) + b) < 2 ^ 64 := by
    intro a ha b hb
    have := hlow b hb
    calc a * 2 ^ w + (j * 2 ^ (w - p) + b) < (a + 1) * 2 ^ w := by rw [add_mul, one_mul]; omega
      _ ≤ 2 ^ 64 := by rw [hA]; exact Nat.mul_le_mul_right _ ha
  refine Finset.card_bij' (fun x _ => ((x : Nat) / 2 ^ w, (x : Nat) % 2 ^ w % 2 ^ (w - p)))
    (fun ab hab => ⟨ab.1 * 2 ^ w + (j * 2 ^ (w - p) + ab.2), hall _ (by
      rw [Finset.mem_product, Finset.mem_range] at hab; exact hab.1) _ (by
      rw [Finset.mem_product, Finset.mem_range, Finset.mem_range] at hab; exact hab.2)⟩) ?_ ?_ ?_ ?_
  · intro x _
    rw [Finset.mem_product, Finset.mem_range, Finset.mem_range]
    refine ⟨?_, Nat.mod_lt _ hBp⟩
    simp only
    rw [Nat.div_lt_iff_lt_mul hWp, ← hA]; exact x.isLt
  · intro ab hab
    rw [Finset.mem_product, Finset.mem_range, Finset.mem_range] at hab
    rw [Finset.mem_filter]
    refine ⟨Finset.mem_univ _, ?_⟩
    simp only
    rw [add_comm, Nat.add_mul_mod_self_right, Nat.mod_eq_of_lt (hlow _ hab.2), bucket, add_comm,
      Nat.add_mul_div_right _ _ hBp, Nat.div_eq_of_lt hab.2, zero_add]
  · intro x hx
    rw [Finset.mem_filter, bucket] at hx
    apply Fin.ext
    simp only
    have h1 := Nat.div_add_mod ((x : Nat) % 2 ^ w) (2 ^ (w - p))
    rw [hx.2] at h1
    have h2 := Nat.div_add_mod (x : Nat) (2 ^ w)
    rw [mul_comm j, h1, mul_comm, h2]
  · intro ab hab
    rw [Finset.mem_product, Finset.mem_range, Finset.mem_range] at hab
    have h1 := hlow _ hab.2
    ext
    · simp only
      rw [add_comm, Nat.add_mul_div_right _ _ hWp, Nat.div_eq_of_lt h1, zero_add]
    · simp only
      rw [add_comm, Nat.add_mul_mod_self_right, Nat.mod_eq_of_lt h1, add_comm,
        Nat.add_mul_mod_self_right, Nat.mod_eq_of_lt hab.2]

/-- The number of zero registers, summed over all assignments. -/
theorem sum_zeros {w p : Nat} (hp : p ≤ w) (hw : w ≤ 64) (n : Nat) :
    ∑ h : Fin n → Fin (2 ^ 64), zeros w p (hashSet w h) = 2 ^ p * (2 ^ 64 - 2 ^ (64 - p)) ^ n := by
  have h1 : ∀ h : Fin n → Fin (2 ^ 64), zeros w p (hashSet w h) =
      ∑ j ∈ Finset.range (2 ^ p),
        if ∀ i, bucket w p ((h i : Nat) % 2 ^ w) ≠ j then 1 else 0 := by
    intro h
    rw [zeros, Finset.card_filter]
    refine Finset.sum_congr rfl fun j _ => ?_
    congr 1
    rw [reg_eq_zero_iff, hashSet]
    simp
  rw [Finset.sum_congr rfl fun h _ => h1 h, Finset.sum_comm]
  have h2 : ∀ j ∈ Finset.range (2 ^ p),
      (∑ h : Fin n → Fin (2 ^ 64), if ∀ i, bucket w p ((h i : Nat) % 2 ^ w) ≠ j then 1 else 0) =
        (2 ^ 64 - 2 ^ (64 - p)) ^ n := by
    intro j hj
    rw [Finset.mem_range] at hj
    rw [← Finset.card_filter]
    have h3 : (Finset.univ.filter fun h : Fin n → Fin (2 ^ 64) =>
        ∀ i, bucket w p ((h i : Nat) % 2 ^ w) ≠ j) =
        Fintype.piFinset fun _ : Fin n =>
          (Finset.univ.filter fun x : Fin (2 ^ 64) => bucket w p ((x : Nat) % 2 ^ w) = j)ᶜ := by
      ext h
      simp [Fintype.mem_piFinset]
    rw [h3, Fintype.card_piFinset_const, Finset.card_compl, card_bucket hp hw hj, Fintype.card_fin]
  rw [Finset.sum_congr rfl h2, Finset.sum_const, Finset.card_range, smul_eq_mul]

/-- The average number of zero registers. -/
theorem average_zeros {w p : Nat} (hp : p ≤ w) (hw : w ≤ 64) (n : Nat) :
    (∑ h : Fin n → Fin (2 ^ 64), (zeros w p (hashSet w h) : ℝ)) /
      Fintype.card (Fin n → Fin (2 ^ 64)) = 2 ^ p * (1 - 1 / 2 ^ p) ^ n := by
  rw [← Nat.cast_sum, sum_zeros hp hw, Fintype.card_fun, Fintype.card_fin, Fintype.card_fin]
  have h1 : 2 ^ (64 - p) ≤ 2 ^ 64 := Nat.pow_le_pow_right (by norm_num) (by omega)
  have h2 : (2 : ℝ) ^ 64 = 2 ^ p * 2 ^ (64 - p) := by rw [← pow_add]; congr 1; omega
  rw [Nat.cast_mul, Nat.cast_pow, Nat.cast_pow, Nat.cast_sub h1, Nat.cast_pow, Nat.cast_pow,
    Nat.cast_pow, mul_div_assoc, ← div_pow]
  have h3 : ((2 : ℕ) ^ 64 : ℕ) = (2 : ℝ) ^ 64 := by norm_num
  simp only [Nat.cast_ofNat, h3, h2]
  congr 2
  field_simp

end HLL
