import Verif.Proofs.Harmonic
import Mathlib.Data.Nat.Digits.Lemmas

/-!
# The number of one bits of a floating point sum

A sum of `k` powers of two, computed in floating point, has at most `k` one bits: rounding never adds
one bits, because it rounds up only when it drops some.
-/

namespace HLL
open F64 Spec

/-- The number of one bits of `n`. -/
def ones (n : Nat) : Nat := (Nat.digits 2 n).sum

theorem ones_zero : ones 0 = 0 := rfl

theorem ones_eq (n : Nat) : ones n = n % 2 + ones (n / 2) := by
  rcases Nat.eq_zero_or_pos n with rfl | h
  · rfl
  · unfold ones
    rw [Nat.digits_def' (by norm_num) h, List.sum_cons]

theorem ones_double (n : Nat) : ones (n * 2) = ones n := by
  rw [ones_eq, Nat.mul_mod_left, Nat.mul_div_cancel _ (by norm_num), Nat.zero_add]

theorem ones_mul_pow (n k : Nat) : ones (n * 2 ^ k) = ones n := by
  induction k with
  | zero => rw [pow_zero, mul_one]
  | succ k ih => rw [pow_succ, ← mul_assoc, ones_double, ih]

theorem ones_pos {n : Nat} (h : n ≠ 0) : 1 ≤ ones n := by
  induction n using Nat.strongRecOn with
  | _ n ih =>
    rw [ones_eq]
    rcases Nat.mod_two_eq_zero_or_one n with h1 | h1
    · have := ih (n / 2) (by omega) (by omega)
      omega
    · omega

theorem ones_succ (n : Nat) : ones (n + 1) ≤ ones n + 1 := by
  induction n using Nat.strongRecOn with
  | _ n ih =>
    rw [ones_eq (n + 1), ones_eq n]
    rcases Nat.mod_two_eq_zero_or_one n with h1 | h1
    · rw [show (n + 1) / 2 = n / 2 by omega]
      omega
    · rw [show (n + 1) / 2 = n / 2 + 1 by omega, show (n + 1) % 2 = 0 by omega]
      have := ih (n / 2) (by omega)
      omega

theorem ones_add_pow (n k : Nat) : ones (n + 2 ^ k) ≤ ones n + 1 := by
  induction k generalizing n with
  | zero => exact ones_succ n
  | succ k ih =>
    rw [ones_eq (n + 2 ^ (k + 1)), ones_eq n, pow_succ]
    have := ih (n / 2)
    rw [show (n + 2 ^ k * 2) % 2 = n % 2 by omega, show (n + 2 ^ k * 2) / 2 = n / 2 + 2 ^ k by omega]
    omega

theorem ones_split (n k : Nat) : ones n = ones (n / 2 ^ k) + ones (n % 2 ^ k) := by
  induction k generalizing n with
  | zero => simp [Nat.mod_one, ones_zero]
  | succ k ih =>
    rw [ones_eq n, ih (n / 2), ones_eq (n % 2 ^ (k + 1)), Nat.div_div_eq_div_mul, pow_succ',
      Nat.mod_mul_right_mod, Nat.mod_mul_right_div_self]
    omega

/-- `x` is a number with at most `k` one bits. -/
def OnesLe (k : Nat) (x : ℚ) : Prop := ∃ n e : Nat, x = n / 2 ^ e ∧ ones n ≤ k

theorem OnesLe.add_term {k : Nat} {x : ℚ} (h : OnesLe k x) (r : Nat) : OnesLe (k + 1) (x + 1 / 2 ^ r) := by
  obtain ⟨n, e, rfl, hn⟩ := h
  refine ⟨n * 2 ^ r + 2 ^ e, e + r, ?_, ?_⟩
  · push_cast
    rw [pow_add]
    field_simp
  · have := ones_add_pow (n * 2 ^ r) e
    rw [ones_mul_pow] at this
    omega

theorem OnesLe.rnd {k : Nat} {x : ℚ} (h : OnesLe k x) : OnesLe k (rnd x) := by
  obtain ⟨n, e, hx, hn⟩ := h
  unfold F64.rnd
  generalize ulpExp x = u
  rcases le_or_gt 0 (-(e : ℤ) - u) with h1 | h1
  · -- an integer multiple of the unit
    obtain ⟨d, hd⟩ := Int.eq_ofNat_of_zero_le h1
    have e1 : x / 2 ^ u = ((n * 2 ^ d : ℕ) : ℤ) := by
      rw [hx, div_div, ← zpow_natCast (2 : ℚ) e, ← zpow_add₀ (by norm_num), div_eq_mul_inv, ← zpow_neg]
      push_cast
      rw [← zpow_natCast (2 : ℚ) d, ← hd]
      congr 2; ring
    rw [e1, rne_intCast]
    refine ⟨n, e, ?_, hn⟩
    rw [← hx, ← e1]
    field_simp
  · obtain ⟨d, hd⟩ := Int.eq_ofNat_of_zero_le (show 0 ≤ (e : ℤ) + u by omega)
    have e1 : x / 2 ^ u = (n : ℚ) / 2 ^ d := by
      rw [hx, div_div, ← zpow_natCast (2 : ℚ) e, ← zpow_add₀ (by norm_num), ← zpow_natCast (2 : ℚ) d, ← hd]
    have e2 : (2 : ℚ) ^ u = 2 ^ d / 2 ^ e := by
      rw [← zpow_natCast (2 : ℚ) e, ← zpow_natCast (2 : ℚ) d, ← hd, ← zpow_sub₀ (by norm_num)]
      congr 1; ring
    have hfl : ⌊(n : ℚ) / 2 ^ d⌋ = ((n / 2 ^ d : ℕ) : ℤ) := by
      have := Rat.floor_natCast_div_natCast n (2 ^ d)
      push_cast at this ⊢
      exact this
    have key : ∃ q : Nat, rne ((n : ℚ) / 2 ^ d) = (q : ℤ) ∧ ones q ≤ ones n := by
      have hs := ones_split n d
      rcases rne_cases ((n : ℚ) / 2 ^ d) with ⟨h2, _⟩ | ⟨h2, h3⟩
      · exact ⟨n / 2 ^ d, by rw [h2, hfl], by omega⟩
      · refine ⟨n / 2 ^ d + 1, by rw [h2, hfl]; push_cast; rfl, ?_⟩
        have h4 : n % 2 ^ d ≠ 0 := by
          intro h0
          have h5 : (n : ℚ) / 2 ^ d = ((n / 2 ^ d : ℕ) : ℤ) := by
            have := Nat.div_add_mod n (2 ^ d)
            rw [h0, add_zero] at this
            rw [div_eq_iff (by positivity)]
            exact_mod_cast (by rw [mul_comm]; exact this.symm)
          rw [hfl, h5] at h3
          norm_num at h3
        have h6 := ones_pos h4
        have h7 := ones_succ (n / 2 ^ d)
        omega
    obtain ⟨q, h2, h3⟩ := key
    refine ⟨q * 2 ^ d, e, ?_, by rw [ones_mul_pow]; omega⟩
    rw [e1, h2, e2]
    push_cast
    ring

theorem onesLe_hsum : ∀ {M : List Nat} {k : Nat} {a : ℚ}, OnesLe k a → OnesLe (k + M.length) (hsum a M)
  | [], _, _, h => h
  | r :: M, k, a, h => by
    have := onesLe_hsum (M := M) (h.add_term r).rnd
    rw [hsum, List.length_cons]
    rwa [show k + (M.length + 1) = k + 1 + M.length by omega]

/-- A number `n / 2^e` with at most `k` one bits: `n` has at most `k` one bits. -/
theorem OnesLe.ones_le {k n e : Nat} (h : OnesLe k ((n : ℚ) / 2 ^ e)) : ones n ≤ k := by
  obtain ⟨m, f, h1, h2⟩ := h
  have h3 : n * 2 ^ f = m * 2 ^ e := by
    rw [div_eq_div_iff (by positivity) (by positivity)] at h1
    exact_mod_cast h1
  rw [← ones_mul_pow n f, h3, ones_mul_pow]
  exact h2

/-- The rounded sum of `2^-r` is a floating point number. -/
theorem rnd_hsum : ∀ {M : List Nat} {a : ℚ}, rnd a = a → rnd (hsum a M) = hsum a M
  | [], _, h => h
  | _ :: M, _, _ => rnd_hsum (M := M) (rnd_idem _)

/-- Numerator of the only double `H` for which `0.697 · 32² / H` is the double 128.3464: this
numerator has 34 one bits, two more than the number of registers. -/
def badSum : Nat := 6261073849449399

theorem ones_badSum : ones badSum = 34 := by decide +kernel

/-- The raw estimate of 32 registers is never the double 128.3464. -/
theorem rawQ_ne {M : List Nat} (hM : Regs 5 M) : rawQ 5 (hsum 0 M) ≠ (ofDec 1283464 4).val := by
  intro h
  obtain ⟨_, hpos, _⟩ := hM.hsum_bounds (by norm_num)
  have hf : rnd (hsum 0 M) = hsum 0 M := rnd_hsum rnd_zero
  have hones : OnesLe 32 (hsum 0 M) := by
    have := onesLe_hsum (M := M) (k := 0) (a := 0) ⟨0, 0, by norm_num, le_rfl⟩
    rwa [hM.length, Nat.zero_add] at this
  generalize hsum 0 M = H at *
  have hH : 0 < H := lt_of_lt_of_le (by positivity) hpos
  have hN : (0 : ℚ) < rnd (alphaQ 5 * (2 ^ 5 * 2 ^ 5)) := by decide +kernel
  have lo : ((badSum - 1 : ℕ) : ℚ) / 2 ^ 50 < H := by
    by_contra hc
    have h1 : rawQ 5 (((badSum - 1 : ℕ) : ℚ) / 2 ^ 50) ≤ rawQ 5 H :=
      rnd_mono (div_le_div_of_nonneg_left hN.le hH (not_lt.1 hc))
    rw [h] at h1
    revert h1; decide +kernel
  have hi : H < ((badSum + 1 : ℕ) : ℚ) / 2 ^ 50 := by
    by_contra hc
    have h1 : rawQ 5 H ≤ rawQ 5 (((badSum + 1 : ℕ) : ℚ) / 2 ^ 50) :=
      rnd_mono (div_le_div_of_nonneg_left hN.le (by decide +kernel) (not_lt.1 hc))
    rw [h] at h1
    revert h1; decide +kernel
  have hu : ulpExp H = -50 := by
    have h4 : Int.log 2 |H| = 2 := by
      rw [abs_of_pos hH]
      apply le_antisymm
      · rw [← Int.lt_add_one_iff]
        refine (Int.lt_zpow_iff_log_lt (by norm_num) hH).1 (hi.trans ?_)
        rw [badSum]; norm_num
      · refine (Int.zpow_le_iff_le_log (by norm_num) hH).1 (le_trans ?_ lo.le)
        rw [badSum]; norm_num
    unfold ulpExp
    rw [h4]; rfl
  obtain ⟨z, hz⟩ : ∃ z : ℤ, H = z / 2 ^ 50 := by
    refine ⟨rne (H / 2 ^ ulpExp H), ?_⟩
    conv_lhs => rw [← hf, F64.rnd]
    rw [hu, div_eq_mul_inv (_ : ℚ) (2 ^ 50), show ((2 : ℚ) ^ (-50 : ℤ)) = (2 ^ 50)⁻¹ by norm_num]
  have hz1 : ((badSum - 1 : ℕ) : ℤ) < z := by
    rw [hz, div_lt_div_iff_of_pos_right (by positivity)] at lo
    exact_mod_cast lo
  have hz2 : z < ((badSum + 1 : ℕ) : ℤ) := by
    rw [hz, div_lt_div_iff_of_pos_right (by positivity)] at hi
    exact_mod_cast hi
  have hz3 : z = (badSum : ℤ) := by
    have : 1 ≤ badSum := by decide
    omega
  rw [hz, hz3, Int.cast_natCast] at hones
  have := OnesLe.ones_le (n := badSum) (e := 50) (k := 32) hones
  rw [ones_badSum] at this
  omega

end HLL
