import Verif.Proofs.LogLast
import Verif.Props.Log

/-!
# The accuracy stated in `src/log.rs`: C59

`src/log.rs:53-54`: the error is always less than 1 ulp, the unit in the last place.  For a number of
size between `2^E` and `2^(E+1)` this unit is `2^(E-52)`.
-/

namespace HLL
open F64 Log LogPoly

/-- **C59.** On every positive double the result differs from the logarithm by less than one unit in
the last place of the exact value. -/
theorem C59_one_ulp (cfg : Cfg) {b : U64} {q : ℚ} (hb : fromBits b = fin q) (h0 : 0 < q) :
    ∃ y : ℚ, log cfg b (fin q) = .ok (fin y) ∧
      ∀ E : ℤ, 2 ^ E ≤ |Real.log q| → |Real.log q| < 2 ^ (E + 1) →
        |(y : ℝ) - Real.log q| < 2 ^ (E - 52) := by
  obtain ⟨h1, h2⟩ := double_of_bits hb h0
  rcases eq_or_ne q 1 with rfl | hne
  · refine ⟨0, log_one cfg b, fun E h => ?_⟩
    rw [Rat.cast_one, Real.log_one, abs_zero] at h
    exact absurd h (not_le.2 (by positivity))
  · obtain ⟨y, a1, a2⟩ := log_one_ulp cfg b h1 h0 h2 hne
    exact ⟨y, a1, fun E _ h => a2 E h⟩

/-- **C59.** Consequently the relative error is at most `2^-52`. -/
theorem C59_relative (cfg : Cfg) {b : U64} {q : ℚ} (hb : fromBits b = fin q) (h0 : 0 < q) :
    ∃ y : ℚ, log cfg b (fin q) = .ok (fin y) ∧ |(y : ℝ) - Real.log q| ≤ |Real.log q| / 2 ^ 52 := by
  obtain ⟨y, a1, a2⟩ := C59_one_ulp cfg hb h0
  refine ⟨y, a1, ?_⟩
  rcases eq_or_ne q 1 with rfl | hne
  · have : log cfg b (fin 1) = .ok (fin 0) := log_one cfg b
    rw [this] at a1
    have hy : y = 0 := by injection a1 with h; injection h with h; exact h.symm
    rw [hy]; simp
  · have hL : 0 < |Real.log q| := abs_pos.2
      (Real.log_ne_zero_of_pos_of_ne_one (by exact_mod_cast h0) (by exact_mod_cast hne))
    have e1 := Int.zpow_log_le_self (b := 2) (by norm_num) hL
    have e2 := Int.lt_zpow_succ_log_self (b := 2) (by norm_num) |Real.log q|
    push_cast at e1 e2
    refine (a2 _ e1 e2).le.trans ?_
    rw [zpow_sub₀ (by norm_num)]
    exact div_le_div_of_nonneg_right e1 (by norm_num)

/-- **C59.** `src/log.rs:43-45`: `n * ln2_hi` is exact for `|n| < 2000`.  The two constants add up to
`ln 2` with an error below `10^-22`. -/
theorem C59_ln2_split {k : ℤ} (hk : |k| < 2000) :
    mul (ofInt k) LN2_HI = fin (k * (2977044471 / 2 ^ 32)) ∧ LN2_HI = fin (2977044471 / 2 ^ 32) ∧
      LN2_LO = fin (7382048951581814 / 2 ^ 85) ∧
      |Real.log 2 - (2977044471 / 2 ^ 32 + 7382048951581814 / 2 ^ 85)| ≤ 1 / 10 ^ 22 := by
  obtain ⟨-, -, -, -, -, -, -, c8, c9⟩ := consts
  refine ⟨?_, c8, c9, ln2_err⟩
  rcases eq_or_ne k 0 with rfl | hk0
  · rw [Int.cast_zero, zero_mul]; decide +kernel
  obtain ⟨k1, -⟩ := ofInt_eq hk.le
  have hhi : rnd ((k : ℚ) * (2977044471 / 2 ^ 32)) = k * (2977044471 / 2 ^ 32) := by
    have e1 : (k : ℚ) * (2977044471 / 2 ^ 32) = ((k * 2977044471 : ℤ) : ℚ) * 2 ^ (-32 : ℤ) := by
      push_cast; norm_num; ring
    rw [e1]
    refine rnd_of_int_mul ?_ (by norm_num)
    rw [abs_mul]
    calc |k| * |2977044471| ≤ 2000 * |2977044471| := mul_le_mul_of_nonneg_right hk.le (abs_nonneg _)
      _ ≤ _ := by norm_num
  have j : Is (mul (ofInt k) LN2_HI) (rnd ((k : ℚ) * (2977044471 / 2 ^ 32))) := by
    rw [k1, c8]
    refine (Is.fin _).mul (Is.fin _) (le_big ?_)
    rw [abs_mul]
    calc |(k : ℚ)| * |2977044471 / 2 ^ 32| ≤ 2000 * 1 :=
          mul_le_mul (by exact_mod_cast hk.le) (by rw [abs_of_pos] <;> norm_num) (abs_nonneg _) (by norm_num)
      _ ≤ _ := by norm_num
  rw [hhi] at j
  refine j.eq_fin ?_
  have : (k : ℚ) ≠ 0 := by exact_mod_cast hk0
  positivity

/-- `ln 2`: between `2^-1` and `2^0`, so the result differs from it by less than `2^-53`. -/
example (cfg : Cfg) : ∃ y : ℚ, log cfg 0x4000000000000000#64 (fin 2) = .ok (fin y) ∧
    |(y : ℝ) - Real.log 2| < 2 ^ (-53 : ℤ) := by
  have hb : fromBits 0x4000000000000000#64 = fin 2 := by decide +kernel
  obtain ⟨y, a1, a2⟩ := C59_one_ulp cfg hb (by norm_num)
  refine ⟨y, a1, ?_⟩
  have h1 := abs_le.1 ln2_err
  have h2 : 0 < Real.log 2 := Real.log_pos (by norm_num)
  have := a2 (-1) (by push_cast; rw [abs_of_pos h2]; norm_num at h1 ⊢; linarith)
    (by push_cast; rw [abs_of_pos h2]; norm_num at h1 ⊢; linarith)
  push_cast at this
  exact this

end HLL
