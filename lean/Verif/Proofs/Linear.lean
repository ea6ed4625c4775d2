import Verif.Proofs.Ln

/-! # Linear counting: monotonicity, bounds in sparse mode -/

namespace HLL.Spec
open F64

theorem log_div_le {m V : ℕ} (hV : 0 < V) (hVm : V ≤ m) (hm : m ≤ 2 ^ 24) :
    Real.log (m / V) ≤ 24 := by
  have hVr : (1 : ℝ) ≤ V := by exact_mod_cast hV
  have hmr : (0 : ℝ) < m := by exact_mod_cast lt_of_lt_of_le hV hVm
  have h1 : (m / V : ℝ) ≤ 2 ^ 24 := by
    rw [div_le_iff₀ (by linarith)]
    have : (m : ℝ) ≤ 2 ^ 24 := by exact_mod_cast hm
    nlinarith
  have h2 := Real.log_le_log (by positivity) h1
  rw [Real.log_pow] at h2
  have h3 := Real.log_le_sub_one_of_pos (x := 2) (by norm_num)
  push_cast at h2
  linarith

/-- Linear counting increases by more than 1/2 for every register that becomes occupied. -/
theorem linear_lt {ln : F64 → F64} (hln : LnSpec ln) {m V V' : ℕ} (h0 : 0 < V') (hV : V' < V)
    (hVm : V ≤ m) (hm : m ≤ 2 ^ 24) :
    ∃ y y' : ℚ, linear ln m V = fin y ∧ linear ln m V' = fin y' ∧ y + 1 / 2 < y' := by
  obtain ⟨y, h1, _, h2⟩ := linear_approx hln (lt_trans h0 hV) hVm hm
  obtain ⟨y', h3, _, h4⟩ := linear_approx hln h0 (le_trans hV.le hVm) hm
  refine ⟨y, y', h1, h3, ?_⟩
  have hL := log_div_le (lt_trans h0 hV) hVm hm
  have hL' := log_div_le h0 (le_trans hV.le hVm) hm
  have hV0 : (0 : ℝ) < V' := by exact_mod_cast h0
  have hV1 : (V' : ℝ) + 1 ≤ V := by exact_mod_cast hV
  have hVr : (0 : ℝ) < V := by linarith
  have hmr : (V : ℝ) ≤ m := by exact_mod_cast hVm
  have hm24 : (m : ℝ) ≤ 2 ^ 24 := by exact_mod_cast hm
  have hm0 : (0 : ℝ) < m := by linarith
  have hgap : 1 ≤ m * Real.log (m / V') - m * Real.log (m / V) := by
    rw [Real.log_div hm0.ne' hV0.ne', Real.log_div hm0.ne' hVr.ne']
    have := Real.one_sub_inv_le_log_of_pos (x := V / V') (by positivity)
    rw [Real.log_div hVr.ne' hV0.ne', inv_div] at this
    have h5 : 1 / m ≤ 1 - (V' / V : ℝ) := by
      rw [le_sub_iff_add_le, ← sub_nonneg]
      have : 1 - (1 / m + V' / V : ℝ) = (m * (V - V') - V) / (m * V) := by field_simp; ring
      rw [this]
      apply div_nonneg _ (by positivity)
      nlinarith
    have h6 : (m : ℝ) * (1 / m) = 1 := by field_simp
    nlinarith
  generalize Real.log (m / V) = L at *
  generalize Real.log (m / V') = L' at *
  have hmL : m * L ≤ 2 ^ 24 * 24 := by
    refine le_trans (mul_le_mul_of_nonneg_left hL hm0.le) ?_
    nlinarith
  have hmL' : m * L' ≤ 2 ^ 24 * 24 := by
    refine le_trans (mul_le_mul_of_nonneg_left hL' hm0.le) ?_
    nlinarith
  have key : (y : ℝ) + 1 / 2 < y' := by
    rw [abs_le] at h2 h4
    norm_num at h2 h4 hmL hmL' ⊢
    linarith [h2.2, h4.1]
  have : (((y + 1 / 2 : ℚ)) : ℝ) < (y' : ℝ) := by push_cast; exact key
  exact_mod_cast this

/-- Linear counting never decreases when registers become occupied. -/
theorem linear_le {ln : F64 → F64} (hln : LnSpec ln) {m V V' : ℕ} (h0 : 0 < V') (hV : V' ≤ V)
    (hVm : V ≤ m) (hm : m ≤ 2 ^ 24) :
    ∃ y y' : ℚ, linear ln m V = fin y ∧ linear ln m V' = fin y' ∧ y ≤ y' := by
  rcases Nat.lt_or_ge V' V with h | h
  · obtain ⟨y, y', h1, h2, h3⟩ := linear_lt hln h0 h hVm hm
    exact ⟨y, y', h1, h2, by linarith⟩
  · have : V' = V := le_antisymm hV h
    subst this
    obtain ⟨y, h1, _⟩ := linear_approx hln h0 hVm hm
    exact ⟨y, y, h1, h1, le_rfl⟩

/-- Linear counting is 0 if no register is occupied. -/
theorem linear_self {ln : F64 → F64} (hln : LnSpec ln) {m : ℕ} (h0 : 0 < m) (hm : m ≤ 2 ^ 24) :
    linear ln m m = fin 0 := by
  obtain ⟨y, h1, h2, _⟩ := linear_approx hln h0 le_rfl hm
  rw [h1, h2 rfl]

/-- Linear counting exceeds 1/2 if some register is occupied. -/
theorem linear_pos {ln : F64 → F64} (hln : LnSpec ln) {m V : ℕ} (h0 : 0 < V) (hV : V < m)
    (hm : m ≤ 2 ^ 24) : ∃ y : ℚ, linear ln m V = fin y ∧ 1 / 2 < y := by
  obtain ⟨y, y', h1, h2, h3⟩ := linear_lt hln h0 hV le_rfl hm
  rw [linear_self hln (by omega) hm] at h1
  obtain rfl : (0 : ℚ) = y := by simpa using h1
  exact ⟨y', h2, by linarith⟩

theorem neg_log_one_sub {x : ℝ} (h0 : 0 < x) (h1 : x ≤ 1 / 64) :
    |(-Real.log (1 - x)) - (x + x ^ 2 / 2)| ≤ x ^ 3 / (1 - x) := by
  have := Real.abs_log_sub_add_sum_range_le (x := x) (by rw [abs_of_pos h0]; linarith) 2
  rw [abs_of_pos h0] at this
  simp only [Finset.sum_range_succ, Finset.sum_range_zero] at this
  norm_num at this
  rw [abs_sub_comm]
  convert this using 2
  ring

/-- With `n` codes the sparse estimate lies between `n` and `n·2^24/(2^24 - n)`. -/
theorem sparse_bounds {ln : F64 → F64} (hln : LnSpec ln) {n : ℕ} (hn0 : 0 < n) (hn : n ≤ 2 ^ 18) :
    ∃ y : ℚ, linear ln (2 ^ 24) (2 ^ 24 - n) = fin y ∧ (n : ℚ) ≤ y ∧
      y ≤ (n : ℚ) * 2 ^ 24 / (2 ^ 24 - n) ∧ (n ≤ 5000 → y < n + 1) := by
  obtain ⟨y, h1, _, h2⟩ := linear_approx hln (m := 2 ^ 24) (V := 2 ^ 24 - n) (by omega) (by omega) le_rfl
  refine ⟨y, h1, ?_⟩
  have hn1 : (1 : ℝ) ≤ n := by exact_mod_cast hn0
  have hn2 : (n : ℝ) ≤ 2 ^ 18 := by exact_mod_cast hn
  have hc : ((2 ^ 24 - n : ℕ) : ℝ) = 2 ^ 24 - n := by
    rw [Nat.cast_sub (by omega)]; norm_num
  rw [hc] at h2
  obtain ⟨x, hx⟩ : ∃ x : ℝ, x = n / 2 ^ 24 := ⟨_, rfl⟩
  have hnx : (n : ℝ) = 2 ^ 24 * x := by rw [hx]; field_simp
  have hx0 : 1 / 2 ^ 24 ≤ x := by rw [hx]; apply div_le_div_of_nonneg_right hn1 (by positivity)
  have hx1 : x ≤ 1 / 64 := by
    rw [hx, div_le_iff₀ (by positivity)]; norm_num at hn2 ⊢; linarith
  have hxp : 0 < x := lt_of_lt_of_le (by positivity) hx0
  have hLeq : Real.log (((2 ^ 24 : ℕ) : ℝ) / (2 ^ 24 - n)) = -Real.log (1 - x) := by
    rw [← Real.log_inv]
    congr 1
    rw [hnx]
    push_cast
    rw [show (2 ^ 24 - 2 ^ 24 * x : ℝ) = 2 ^ 24 * (1 - x) by ring]
    have : 1 - x ≠ 0 := by linarith
    field_simp
    norm_num
  rw [hLeq] at h2
  have h3 := neg_log_one_sub hxp hx1
  have hcube : x ^ 3 / (1 - x) ≤ 64 / 63 * x ^ 3 := by
    rw [div_le_iff₀ (by linarith)]
    have : 0 < x ^ 3 := by positivity
    nlinarith
  have hcube2 : x ^ 3 ≤ x ^ 2 / 64 := by
    have : x ^ 3 = x ^ 2 * x := by ring
    rw [this]
    have : 0 < x ^ 2 := by positivity
    nlinarith
  generalize -Real.log (1 - x) = L at *
  rw [abs_le] at h2 h3
  push_cast at h2
  have hsq : x ^ 2 ≥ x / 2 ^ 24 := by
    rw [sq, ge_iff_le, div_eq_mul_one_div]
    exact mul_le_mul_of_nonneg_left hx0 hxp.le
  have hLlow : x + 0.48 * x ^ 2 ≤ L := by
    norm_num; linarith [h3.1]
  have hLup : L ≤ x + x ^ 2 / 2 + x ^ 3 / (1 - x) := by linarith [h3.2]
  have hLup2 : L ≤ 1.02 * x := by
    have : x ^ 2 ≤ x / 64 := by rw [sq]; nlinarith
    norm_num; linarith
  have hylow : (n : ℝ) ≤ y := by
    rw [hnx]
    norm_num at h2 hsq hx0 hLlow hLup2 ⊢
    linarith [h2.1]
  have hyup : (y : ℝ) ≤ n * 2 ^ 24 / (2 ^ 24 - n) := by
    have e : (n : ℝ) * 2 ^ 24 / (2 ^ 24 - n) = 2 ^ 24 * (x + x ^ 2 + x ^ 3 / (1 - x)) := by
      rw [hnx]
      have : 1 - x ≠ 0 := by linarith
      rw [show (2 ^ 24 - 2 ^ 24 * x : ℝ) = 2 ^ 24 * (1 - x) by ring]
      field_simp
      ring
    rw [e]
    norm_num at h2 hsq hx0 hLup hLup2 ⊢
    linarith [h2.2]
  refine ⟨by exact_mod_cast hylow, ?_, ?_⟩
  · have : (y : ℝ) ≤ (((n : ℚ) * 2 ^ 24 / (2 ^ 24 - n) : ℚ) : ℝ) := by push_cast; exact hyup
    exact_mod_cast this
  · intro h5
    have h5r : (n : ℝ) ≤ 5000 := by exact_mod_cast h5
    have hx5 : x ≤ 5000 / 2 ^ 24 := by
      rw [hx]; apply div_le_div_of_nonneg_right h5r (by positivity)
    have hx2 : 2 ^ 24 * x ^ 2 ≤ 1.5 := by
      have : x ^ 2 ≤ (5000 / 2 ^ 24) ^ 2 := by gcongr
      norm_num at this ⊢; linarith
    have hx3 : x ^ 3 ≤ x ^ 2 * (5000 / 2 ^ 24) := by
      have : x ^ 3 = x ^ 2 * x := by ring
      rw [this]; gcongr
    have : (y : ℝ) < n + 1 := by
      rw [hnx]
      norm_num at h2 hLup2 hx2 hx3 hx5 ⊢
      linarith [h2.2]
    exact_mod_cast this

end HLL.Spec
