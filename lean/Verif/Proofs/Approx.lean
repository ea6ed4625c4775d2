import Verif.Proofs.FloatOps
import Verif.Proofs.Bias

/-! # Operations on finite doubles, up to the sign of zero, and their errors -/

namespace HLL
namespace F64

/-- `x` is finite and its value is `q`. -/
def Is (x : F64) (q : ℚ) : Prop := x = fin q ∨ (x = negZero ∧ q = 0)

theorem Is.fin (q : ℚ) : Is (.fin q) q := Or.inl rfl

theorem Is.ne_nan {x : F64} {q : ℚ} (h : Is x q) : x ≠ nan := by
  rcases h with rfl | ⟨rfl, _⟩ <;> simp

theorem Is.val_eq {x : F64} {q : ℚ} (h : Is x q) : x.val = q := by
  rcases h with rfl | ⟨rfl, rfl⟩ <;> rfl

theorem Is.inj {x : F64} {q r : ℚ} (h : Is x q) (h' : Is x r) : q = r := by
  rw [← h.val_eq, ← h'.val_eq]

theorem Is.eq_fin {x : F64} {q : ℚ} (h : Is x q) (hq : q ≠ 0) : x = .fin q := by
  rcases h with rfl | ⟨rfl, rfl⟩
  · rfl
  · exact absurd rfl hq

theorem is_round {K : Type*} [Field K] [LinearOrder K] [IsStrictOrderedRing K] [FloorRing K]
    (z : Bool) {x : K} (h : |x| ≤ 2 ^ 1023) : Is (round z x) (rnd x) := by
  unfold round
  rw [if_neg (not_le.2 (rnd_abs_lt h))]
  split
  · rename_i h0
    cases z
    · left; simp [h0]
    · right; simp [h0]
  · exact Or.inl rfl

theorem Is.neg {x : F64} {a : ℚ} (hx : Is x a) : Is (neg x) (-a) := by
  rcases hx with rfl | ⟨rfl, rfl⟩
  · unfold F64.neg
    simp only
    split
    · rename_i h; right; simp [h]
    · exact Or.inl rfl
  · left; simp [F64.neg]

theorem Is.add {x y : F64} {a b : ℚ} (hx : Is x a) (hy : Is y b) (h : |a + b| ≤ 2 ^ 1023) :
    Is (add x y) (rnd (a + b)) := by
  rcases hx with rfl | ⟨rfl, rfl⟩ <;> rcases hy with rfl | ⟨rfl, rfl⟩
  · exact is_round false h
  · exact is_round false h
  · exact is_round false h
  · right; rw [add_zero, rnd_zero]; exact ⟨rfl, rfl⟩

theorem Is.sub {x y : F64} {a b : ℚ} (hx : Is x a) (hy : Is y b) (h : |a - b| ≤ 2 ^ 1023) :
    Is (sub x y) (rnd (a - b)) := by
  rw [sub_eq_add_neg] at h ⊢
  exact hx.add hy.neg h

theorem Is.mul {x y : F64} {a b : ℚ} (hx : Is x a) (hy : Is y b) (h : |a * b| ≤ 2 ^ 1023) :
    Is (mul x y) (rnd (a * b)) := by
  rcases hx with rfl | ⟨rfl, rfl⟩ <;> rcases hy with rfl | ⟨rfl, rfl⟩ <;> exact is_round _ h

theorem Is.div {x y : F64} {a b : ℚ} (hx : Is x a) (hy : Is y b) (hb : b ≠ 0)
    (h : |a / b| ≤ 2 ^ 1023) : Is (div x y) (rnd (a / b)) := by
  have hy' := hy.eq_fin hb
  subst hy'
  rcases hx with rfl | ⟨rfl, rfl⟩
  · rw [div_fin hb]; exact is_round _ h
  · have : F64.div negZero (.fin b) = round (negZero.sign != (F64.fin b).sign) (negZero.val / b) :=
      if_neg hb
    rw [this]; exact is_round _ h

theorem Is.partialCmp {x y : F64} {a b : ℚ} (hx : Is x a) (hy : Is y b) :
    partialCmp x y = some (if a < b then .lt else if a = b then .eq else .gt) := by
  rcases hx with rfl | ⟨rfl, rfl⟩ <;> rcases hy with rfl | ⟨rfl, rfl⟩ <;> rfl

theorem Is.cmp {x y : F64} {a b : ℚ} (hx : Is x a) (hy : Is y b) :
    cmp x y = if a < b then .lt else if a = b then .eq else .gt := by
  unfold F64.cmp; rw [hx.partialCmp hy]; rfl

theorem Is.cmp_lt {x y : F64} {a b : ℚ} (hx : Is x a) (hy : Is y b) (h : F64.cmp x y = .lt) :
    a < b := by
  rw [hx.cmp hy] at h
  by_contra h1
  rw [if_neg h1] at h
  split at h <;> cases h

theorem Is.cmp_gt {x y : F64} {a b : ℚ} (hx : Is x a) (hy : Is y b) (h : F64.cmp x y = .gt) :
    b < a := by
  rw [hx.cmp hy] at h
  by_contra h1
  rcases lt_or_eq_of_le (not_lt.1 h1) with h2 | h2
  · rw [if_pos h2] at h; cases h
  · rw [if_neg (by rw [h2]; exact lt_irrefl _), if_pos h2] at h; cases h

theorem Is.cmp_eq {x y : F64} {a b : ℚ} (hx : Is x a) (hy : Is y b) (h : F64.cmp x y = .eq) :
    a = b := by
  rw [hx.cmp hy] at h
  by_contra h1
  rw [if_neg h1] at h
  split at h <;> cases h

theorem Is.le {x y : F64} {a b : ℚ} (hx : Is x a) (hy : Is y b) : le x y = true ↔ a ≤ b := by
  unfold F64.le
  rw [hx.partialCmp hy]
  rcases lt_trichotomy a b with h | h | h
  · simp [h, h.le]
  · simp [h]
  · simp [h, h.not_gt, h.ne']

theorem Is.gt {x y : F64} {a b : ℚ} (hx : Is x a) (hy : Is y b) : gt x y = true ↔ b < a := by
  unfold F64.gt
  rw [hx.partialCmp hy]
  rcases lt_trichotomy a b with h | h | h
  · simp [h, h.not_gt]
  · simp [h]
  · simp [h, h.not_gt, h.ne']

theorem is_ofNat {n : ℕ} (h : n ≤ 2 ^ 53) : Is (ofNat n) n := by rw [ofNat_eq h]; exact Is.fin _

/-! ## Errors -/

section
variable {K : Type*} [Field K] [LinearOrder K] [IsStrictOrderedRing K] [FloorRing K]

/-- Error of rounding, including underflow. -/
theorem rnd_err (x : K) : |((rnd x : ℚ) : K) - x| ≤ |x| / 2 ^ 53 + 2 ^ (-1074 : ℤ) := by
  rcases eq_or_ne x 0 with rfl | hx
  · rw [rnd_zero]
    have := two_pow_pos (K := K) (-1074)
    simpa using this.le
  rcases le_or_gt ((2 : K) ^ (-1022 : ℤ)) |x| with h | h
  · refine le_trans (abs_rnd_sub_le_rel h) ?_
    have := two_pow_pos (K := K) (-1074)
    linarith
  · refine le_trans (abs_rnd_sub_le x) ?_
    have hu : ulpExp x = -1074 := by
      unfold ulpExp
      have : Int.log 2 |x| < -1022 := by
        rw [← Int.lt_zpow_iff_log_lt (by norm_num) (abs_pos.2 hx)]; exact_mod_cast h
      omega
    rw [hu]
    have := two_pow_pos (K := K) (-1074)
    have := abs_nonneg x
    have : 0 ≤ |x| / 2 ^ 53 := by positivity
    linarith

/-- Integer multiples of the smallest subnormal are rounded with a small relative error only. -/
theorem rnd_err_grid {x : K} {n : ℤ} (h : x = n * 2 ^ (-1074 : ℤ)) :
    |((rnd x : ℚ) : K) - x| ≤ |x| / 2 ^ 53 := by
  rcases le_or_gt ((2 : K) ^ (-1022 : ℤ)) |x| with h1 | h1
  · exact abs_rnd_sub_le_rel h1
  · have hn : |n| ≤ 2 ^ 53 := by
      by_contra hn
      rw [not_le] at hn
      apply absurd h1
      rw [not_lt, h, abs_mul, abs_of_pos (two_pow_pos (K := K) (-1074))]
      have h53 : (2 : K) ^ (-1022 : ℤ) ≤ 2 ^ (53 : ℤ) * 2 ^ (-1074 : ℤ) := by
        rw [← zpow_add₀ (by norm_num)]; exact zpow_le_zpow_right₀ (by norm_num) (by norm_num)
      refine le_trans h53 (mul_le_mul_of_nonneg_right ?_ (two_pow_pos _).le)
      have : ((2 ^ 53 : ℤ) : K) ≤ ((|n| : ℤ) : K) := Int.cast_le.2 hn.le
      push_cast at this
      norm_num at this ⊢
      exact this
    have h2 : ((rnd x : ℚ) : K) = x := by
      rw [h, rnd_of_int_mul hn le_rfl]; push_cast; rfl
    rw [h2, sub_self, abs_zero]; positivity

/-- Representable numbers are multiples of the smallest subnormal. -/
theorem rnd_grid (x : K) : ∃ n : ℤ, rnd x = n * 2 ^ (-1074 : ℤ) := by
  obtain ⟨m, e, _, he, h⟩ := rnd_form x
  refine ⟨m * 2 ^ (e + 1074).toNat, ?_⟩
  rw [h]
  push_cast
  rw [mul_assoc, ← zpow_natCast, ← zpow_add₀ (by norm_num)]
  congr 2
  omega

/-- Subtracting doubles has a small relative error. -/
theorem rnd_sub_err {a b : ℚ} (ha : rnd a = a) (hb : rnd b = b) :
    |rnd (a - b) - (a - b)| ≤ |a - b| / 2 ^ 53 := by
  obtain ⟨m, hm⟩ := rnd_grid a
  obtain ⟨n, hn⟩ := rnd_grid b
  have h : a - b = (m - n : ℤ) * 2 ^ (-1074 : ℤ) := by
    rw [← ha, ← hb, hm, hn]; push_cast; ring
  have := rnd_err_grid (K := ℚ) h
  simpa using this

/-- Adding doubles has a small relative error. -/
theorem rnd_add_err {a b : ℚ} (ha : rnd a = a) (hb : rnd b = b) :
    |rnd (a + b) - (a + b)| ≤ |a + b| / 2 ^ 53 := by
  have := rnd_sub_err ha (b := -b) (by rw [rnd_neg, hb])
  simpa using this

end

theorem rnd_rnd {K : Type*} [Field K] [LinearOrder K] [IsStrictOrderedRing K] [FloorRing K] (x : K) :
    rnd (rnd x : ℚ) = rnd x := by
  obtain ⟨m, e, hm, he, h⟩ := rnd_form x
  rw [h, rnd_of_int_mul hm he]

end F64
end HLL
