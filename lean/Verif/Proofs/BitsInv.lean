import Verif.Proofs.Bits

/-!
# Every bit pattern is the pattern of a double
-/

namespace HLL.F64

theorem bitsVal_fields {e m : Nat} (he : e < 2047) (hm : m < 2 ^ 52) (h0 : ¬ (e = 0 ∧ m = 0)) {q : ℚ}
    (hq : |q| = bitsVal e m) :
    rnd q = q ∧ 0 < |q| ∧ |q| < 2 ^ 1024 ∧ expField q = e ∧ fracField q = m := by
  by_cases he0 : e = 0
  · subst he0
    rw [bitsVal, if_pos rfl] at hq
    have hm0 : m ≠ 0 := by simpa using h0
    have hmp : (0 : ℚ) < m := by exact_mod_cast Nat.pos_of_ne_zero hm0
    have hm' : (m : ℚ) < 2 ^ 52 := by exact_mod_cast hm
    have hlt : |q| < 2 ^ (-1022 : ℤ) := by
      rw [hq]
      calc (m : ℚ) * 2 ^ (-1074 : ℤ) < 2 ^ 52 * 2 ^ (-1074 : ℤ) :=
            mul_lt_mul_of_pos_right hm' (two_pow_pos _)
        _ = _ := by rw [← zpow_natCast, ← zpow_add₀ (by norm_num)]; norm_num
    have hr : rnd ((m : ℚ) * 2 ^ (-1074 : ℤ)) = m * 2 ^ (-1074 : ℤ) := by
      have := rnd_of_int_mul (K := ℚ) (m := (m : ℤ)) (e := -1074) (by rw [abs_of_nonneg] <;> omega) le_rfl
      exact_mod_cast this
    refine ⟨?_, by rw [hq]; positivity, ?_, ?_, ?_⟩
    · rcases abs_choice q with h | h
      · rw [← h, hq, hr]
      · rw [h] at hq
        rw [show q = -((m : ℚ) * 2 ^ (-1074 : ℤ)) by rw [← hq, neg_neg], rnd_neg, hr]
    · refine hlt.trans ?_
      calc (2 : ℚ) ^ (-1022 : ℤ) ≤ 2 ^ (0 : ℤ) := zpow_le_zpow_right₀ (by norm_num) (by norm_num)
        _ = 1 := zpow_zero _
        _ < 2 ^ 1024 := one_lt_pow₀ (by norm_num) (by norm_num)
    · rw [expField, if_pos hlt]
    · rw [fracField, if_pos hlt, hq, mul_assoc, ← zpow_add₀ (by norm_num)]
      norm_num
  · rw [bitsVal, if_neg he0] at hq
    have hm' : (m : ℚ) < 2 ^ 52 := by exact_mod_cast hm
    have hp : 0 < |q| := by rw [hq]; positivity
    have hlo : (2 : ℚ) ^ ((e : ℤ) - 1023) ≤ |q| := by
      rw [hq]
      calc (2 : ℚ) ^ ((e : ℤ) - 1023) = 2 ^ 52 * 2 ^ ((e : ℤ) - 1075) := by
            rw [← zpow_natCast, ← zpow_add₀ (by norm_num)]; congr 1; push_cast; ring
        _ ≤ _ := mul_le_mul_of_nonneg_right (by linarith [Nat.cast_nonneg (α := ℚ) m]) (two_pow_pos _).le
    have hhi : |q| < (2 : ℚ) ^ ((e : ℤ) - 1022) := by
      rw [hq]
      calc _ < (2 : ℚ) ^ 53 * 2 ^ ((e : ℤ) - 1075) :=
            mul_lt_mul_of_pos_right (by linarith) (two_pow_pos _)
        _ = 2 ^ ((e : ℤ) - 1022) := by
            rw [← zpow_natCast, ← zpow_add₀ (by norm_num)]; congr 1; push_cast; ring
    have hL : Int.log 2 |q| = (e : ℤ) - 1023 := by
      have h1 : (e : ℤ) - 1023 ≤ Int.log 2 |q| := by
        rw [← Int.zpow_le_iff_le_log (by norm_num) hp]; exact_mod_cast hlo
      have h2 : Int.log 2 |q| < (e : ℤ) - 1022 := by
        rw [← Int.lt_zpow_iff_log_lt (by norm_num) hp]; exact_mod_cast hhi
      omega
    have hns : ¬ |q| < 2 ^ (-1022 : ℤ) := by
      rw [not_lt]
      exact (zpow_le_zpow_right₀ (by norm_num) (by omega)).trans hlo
    have hr : rnd (((2 : ℚ) ^ 52 + m) * 2 ^ ((e : ℤ) - 1075)) = (2 ^ 52 + m) * 2 ^ ((e : ℤ) - 1075) := by
      have := rnd_of_int_mul (K := ℚ) (m := (2 ^ 52 + m : ℤ)) (e := (e : ℤ) - 1075)
        (by rw [abs_of_nonneg] <;> omega) (by omega)
      push_cast at this
      exact this
    refine ⟨?_, hp, ?_, ?_, ?_⟩
    · rcases abs_choice q with h | h
      · rw [← h, hq, hr]
      · rw [h] at hq
        rw [show q = -(((2 : ℚ) ^ 52 + m) * 2 ^ ((e : ℤ) - 1075)) by rw [← hq, neg_neg], rnd_neg, hr]
    · refine hhi.trans_le ?_
      rw [← zpow_natCast]
      exact zpow_le_zpow_right₀ (by norm_num) (by push_cast; omega)
    · rw [expField, if_neg hns, hL]; omega
    · rw [fracField, if_neg hns, hL, hq, mul_assoc, ← zpow_add₀ (by norm_num),
        show ((e : ℤ) - 1075 + (52 - ((e : ℤ) - 1023))) = 0 by ring, zpow_zero, mul_one,
        show ((2 : ℚ) ^ 52 + m) = ((2 ^ 52 + m : ℕ) : ℚ) by push_cast; rfl, Nat.floor_natCast]
      omega

/-- What the 64 bits mean: the kinds of doubles. -/
theorem fromBits_cases (b : U64) :
    (fromBits b = nan ∧ b.toNat / 2 ^ 52 % 2 ^ 11 = 2047 ∧ b.toNat % 2 ^ 52 ≠ 0) ∨
    (∃ s, fromBits b = inf s ∧ b = pack s 2047 0) ∨
    (fromBits b = negZero ∧ b = pack true 0 0) ∨
    (fromBits b = fin 0 ∧ b = pack false 0 0) ∨
    (∃ q : ℚ, fromBits b = fin q ∧ q ≠ 0 ∧ rnd q = q ∧ |q| < 2 ^ 1024 ∧
      b = pack (decide (q < 0)) (expField q) (fracField q)) := by
  set e := b.toNat / 2 ^ 52 % 2 ^ 11 with hE
  set m := b.toNat % 2 ^ 52 with hM
  set s := b.msb with hS
  have hlt := b.isLt
  have hsv : b.toNat = s.toNat * 2 ^ 63 + e * 2 ^ 52 + m := by
    have : s.toNat = b.toNat / 2 ^ 63 := by
      rw [hS, BitVec.msb_eq_decide]
      by_cases h : 2 ^ (64 - 1) ≤ b.toNat
      · rw [decide_eq_true h]
        simp only [Bool.toNat_true]
        omega
      · rw [decide_eq_false h]
        simp only [Bool.toNat_false]
        omega
    rw [this]; omega
  have hb : b = pack s e m := by
    apply BitVec.eq_of_toNat_eq
    rw [pack_toNat (by omega) (by omega), hsv]
  have hf : fromBits b = if e = 2047 then (if m = 0 then inf s else nan)
      else if bitsVal e m = 0 then (if s then negZero else fin 0)
      else fin (if s then -bitsVal e m else bitsVal e m) := rfl
  by_cases he : e = 2047
  · rw [if_pos he] at hf
    by_cases hm : m = 0
    · rw [if_pos hm] at hf
      exact Or.inr (Or.inl ⟨s, hf, by rw [he, hm] at hb; exact hb⟩)
    · rw [if_neg hm] at hf
      exact Or.inl ⟨hf, he, hm⟩
  rw [if_neg he] at hf
  by_cases h0 : e = 0 ∧ m = 0
  · obtain ⟨h1, h2⟩ := h0
    rw [h1, h2] at hf hb
    rw [if_pos (by simp [bitsVal])] at hf
    cases hs : s
    · rw [hs] at hf hb
      exact Or.inr (Or.inr (Or.inr (Or.inl ⟨hf, hb⟩)))
    · rw [hs] at hf hb
      exact Or.inr (Or.inr (Or.inl ⟨hf, hb⟩))
  · have hp : 0 < bitsVal e m := by
      rw [bitsVal]
      split
      · have : (0 : ℚ) < m := by exact_mod_cast Nat.pos_of_ne_zero (by omega)
        positivity
      · positivity
    rw [if_neg hp.ne'] at hf
    refine Or.inr (Or.inr (Or.inr (Or.inr ⟨_, hf, ?_⟩)))
    have habs : |if s = true then -bitsVal e m else bitsVal e m| = bitsVal e m := by
      cases s <;> simp [abs_of_pos hp]
    obtain ⟨h1, h2, h3, h4, h5⟩ := bitsVal_fields (by omega) (by omega) h0 habs
    refine ⟨abs_pos.1 h2, h1, h3, ?_⟩
    rw [h4, h5]
    have : decide ((if s = true then -bitsVal e m else bitsVal e m) < 0) = s := by
      cases s
      · simp [hp.le]
      · simp [hp]
    rw [this]
    exact hb

/-- `x.to_bits()` gives back the bits `x` was made of. -/
theorem toBits_fromBits (b : U64) : toBits b (fromBits b) = b := by
  rcases fromBits_cases b with ⟨h, _⟩ | ⟨s, h, hb⟩ | ⟨h, hb⟩ | ⟨h, hb⟩ | ⟨q, h, _, _, _, hb⟩
  · rw [h]; rfl
  · rw [h]; exact hb.symm
  · rw [h]; exact hb.symm
  · rw [h]
    have : toBits b (fin 0) = pack false 0 0 := by
      rw [toBits]; decide +kernel
    rw [this]; exact hb.symm
  · rw [h]; exact hb.symm

end HLL.F64
