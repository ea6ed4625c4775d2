import Verif.Proofs.Float

/-! # Operations on doubles whose result is finite -/

namespace HLL
namespace F64

section
variable {K : Type*} [Field K] [LinearOrder K] [IsStrictOrderedRing K] [FloorRing K]

theorem round_eq_fin {z : Bool} {x : K} (h : |rnd x| < 2 ^ 1024) (hz : z = false ∨ rnd x ≠ 0) :
    round z x = fin (rnd x) := by
  unfold round
  rw [if_neg (by simpa using h)]
  by_cases h0 : rnd x = 0
  · rw [if_pos h0]
    rcases hz with rfl | hz
    · simp [h0]
    · exact absurd h0 hz
  · rw [if_neg h0]

theorem rnd_abs_lt {x : K} (h : |x| ≤ 2 ^ 1023) : |rnd x| < 2 ^ 1024 := by
  have h1 : rnd x ≤ 2 ^ (1023 : ℤ) := by
    apply rnd_le_of_le (rnd_two_zpow (by norm_num))
    have := (abs_le.1 h).2
    push_cast; exact_mod_cast this
  have h2 : -(2 ^ (1023 : ℤ)) ≤ rnd x := by
    apply le_rnd_of_le (by rw [rnd_neg, rnd_two_zpow (by norm_num)])
    have := (abs_le.1 h).1
    push_cast; exact_mod_cast this
  have h3 : (2 : ℚ) ^ (1023 : ℤ) < 2 ^ 1024 := by
    rw [← zpow_natCast]; exact zpow_lt_zpow_right₀ (by norm_num) (by norm_num)
  exact lt_of_le_of_lt (abs_le.2 ⟨h2, h1⟩) h3

theorem round_fin {z : Bool} {x : K} (h : |x| ≤ 2 ^ 1023) (hz : z = false ∨ rnd x ≠ 0) :
    round z x = fin (rnd x) := round_eq_fin (rnd_abs_lt h) hz

theorem rnd_pos {x : K} (hx : (2 : K) ^ (-1074 : ℤ) ≤ x) : 0 < rnd x := by
  have : (2 : ℚ) ^ (-1074 : ℤ) ≤ rnd x :=
    le_rnd_of_le (rnd_two_zpow le_rfl) (by push_cast; exact hx)
  exact lt_of_lt_of_le (by positivity) this

end

theorem ofNat_eq {n : ℕ} (h : n ≤ 2 ^ 53) : ofNat n = fin n := by
  have hr : rnd (n : ℚ) = n := rnd_natCast h
  unfold ofNat
  rw [round_eq_fin _ (Or.inl rfl), hr]
  rw [hr, abs_of_nonneg (by positivity)]
  calc (n : ℚ) ≤ 2 ^ 53 := by exact_mod_cast h
    _ < 2 ^ 1024 := pow_lt_pow_right₀ (by norm_num) (by norm_num)

theorem add_fin (a b : ℚ) : add (fin a) (fin b) = round false (a + b) := rfl
theorem mul_fin (a b : ℚ) : mul (fin a) (fin b) = round (decide (a < 0) != decide (b < 0)) (a * b) := rfl
theorem div_fin {a b : ℚ} (hb : b ≠ 0) :
    div (fin a) (fin b) = round (decide (a < 0) != decide (b < 0)) (a / b) := by
  exact if_neg hb

theorem sub_fin (a b : ℚ) : sub (fin a) (fin b) = round false (a - b) := by
  by_cases hb : b = 0
  · have h : neg (fin b) = negZero := if_pos hb
    rw [sub, h, hb, sub_zero]
    show round false (a + 0) = _
    rw [add_zero]
  · have h : neg (fin b) = fin (-b) := if_neg hb
    rw [sub, h, add_fin, sub_eq_add_neg]

theorem le_fin (a b : ℚ) : le (fin a) (fin b) = true ↔ a ≤ b := by
  simp only [le, partialCmp, val]
  rcases lt_trichotomy a b with h | h | h
  · simp [h, h.le]
  · simp [h]
  · simp [h.not_gt, h.ne', h]

theorem gt_fin (a b : ℚ) : gt (fin a) (fin b) = true ↔ b < a := by
  simp only [gt, partialCmp, val]
  rcases lt_trichotomy a b with h | h | h
  · simp [h, h.le]
  · simp [h]
  · simp [h.not_gt, h.ne', h]

/-- Non-negative operands. -/
theorem mul_fin_nonneg {a b : ℚ} (ha : 0 ≤ a) (hb : 0 ≤ b) (h : a * b ≤ 2 ^ 1023) :
    mul (fin a) (fin b) = fin (rnd (a * b)) := by
  rw [mul_fin, round_fin (by rwa [abs_of_nonneg (mul_nonneg ha hb)])]
  left; simp [ha.not_gt, hb.not_gt]

theorem div_fin_nonneg {a b : ℚ} (ha : 0 ≤ a) (hb : 0 < b) (h : a / b ≤ 2 ^ 1023) :
    div (fin a) (fin b) = fin (rnd (a / b)) := by
  rw [div_fin hb.ne', round_fin (by rwa [abs_of_nonneg (div_nonneg ha hb.le)])]
  left; simp [ha.not_gt, hb.le.not_gt]

theorem add_fin_of {a b : ℚ} (h : |a + b| ≤ 2 ^ 1023) : add (fin a) (fin b) = fin (rnd (a + b)) := by
  rw [add_fin, round_fin h (Or.inl rfl)]

theorem sub_fin_of {a b : ℚ} (h : |a - b| ≤ 2 ^ 1023) : sub (fin a) (fin b) = fin (rnd (a - b)) := by
  rw [sub_fin, round_fin h (Or.inl rfl)]

theorem inv_pow_eq {k : ℕ} (hk : k ≤ 1000) : div (fin 1) (fin (2 ^ k)) = fin (1 / 2 ^ k) := by
  have hp : (0 : ℚ) < 2 ^ k := by positivity
  have h1 : (1 : ℚ) / 2 ^ k ≤ 1 := by
    rw [div_le_one hp]; exact one_le_pow₀ (by norm_num)
  rw [div_fin_nonneg (by norm_num) hp (le_trans h1 (one_le_pow₀ (by norm_num)))]
  congr 1
  have := rnd_two_zpow (K := ℚ) (e := -(k : ℤ)) (by omega)
  rw [zpow_neg, zpow_natCast] at this
  rw [one_div]; exact this

end F64
end HLL
