import Verif.Model.Log
import Verif.Proofs.Approx
import Verif.Proofs.Prim
import Mathlib.Tactic.LinearCombination
import Mathlib.Tactic.IntervalCases

/-!
# Bits of doubles and the argument reduction of `src/log.rs`
-/

namespace HLL
namespace F64

/-- Value of the positive double with exponent field `e` and fraction field `m`. -/
def bitsVal (e m : Nat) : ℚ :=
  if e = 0 then m * 2 ^ (-1074 : ℤ) else (2 ^ 52 + m) * 2 ^ ((e : ℤ) - 1075)

theorem pack_toNat {e m : Nat} (he : e < 2 ^ 11) (hm : m < 2 ^ 52) (s : Bool) :
    (pack s e m).toNat = s.toNat * 2 ^ 63 + e * 2 ^ 52 + m := by
  rw [pack, BitVec.toNat_ofNat]
  apply Nat.mod_eq_of_lt
  cases s <;> simp <;> omega

/-- A double is an integer multiple of its unit in the last place. -/
theorem eq_int_mul {q : ℚ} (hq : rnd q = q) : ∃ n : ℤ, q = n * 2 ^ ulpExp q :=
  ⟨_, hq.symm⟩

theorem fields {q : ℚ} (hq : rnd q = q) (h0 : q ≠ 0) (h1 : |q| < 2 ^ 1024) :
    fracField q < 2 ^ 52 ∧ expField q < 2047 ∧ bitsVal (expField q) (fracField q) = |q| ∧
      (expField q = 0 ↔ |q| < 2 ^ (-1022 : ℤ)) := by
  have habs : 0 < |q| := abs_pos.2 h0
  obtain ⟨n, hn⟩ := eq_int_mul hq
  have hn' : |q| = (|n| : ℤ) * 2 ^ ulpExp q := by
    conv_lhs => rw [hn]
    rw [abs_mul, Int.cast_abs, abs_of_pos (two_pow_pos (K := ℚ) _)]
  by_cases hs : |q| < 2 ^ (-1022 : ℤ)
  · have hu : ulpExp q = -1074 := by
      unfold ulpExp
      have : Int.log 2 |q| < -1022 := by
        rw [← Int.lt_zpow_iff_log_lt (by norm_num) habs]; exact_mod_cast hs
      omega
    rw [hu] at hn'
    have e1 : |q| * 2 ^ (1074 : ℤ) = ((|n|).toNat : ℚ) := by
      rw [hn', mul_assoc, ← zpow_add₀ (by norm_num), show ((-1074 : ℤ) + 1074) = 0 by norm_num,
        zpow_zero, mul_one]
      have : ((|n|).toNat : ℤ) = |n| := Int.toNat_of_nonneg (abs_nonneg n)
      exact_mod_cast this.symm
    have e2 : fracField q = (|n|).toNat := by
      unfold fracField
      rw [if_pos hs, e1, Nat.floor_natCast]
    have e3 : expField q = 0 := by unfold expField; rw [if_pos hs]
    have e4 : (((|n|).toNat : ℕ) : ℚ) < ((2 ^ 52 : ℕ) : ℚ) := by
      rw [← e1]
      calc |q| * 2 ^ (1074 : ℤ) < 2 ^ (-1022 : ℤ) * 2 ^ (1074 : ℤ) :=
            mul_lt_mul_of_pos_right hs (two_pow_pos _)
        _ = _ := by rw [← zpow_add₀ (by norm_num)]; norm_num
    refine ⟨by rw [e2]; exact_mod_cast e4, by omega, ?_, iff_of_true e3 hs⟩
    rw [e3, e2, bitsVal, if_pos rfl, ← e1, mul_assoc, ← zpow_add₀ (by norm_num)]
    norm_num
  · have hs' := not_lt.1 hs
    set L := Int.log 2 |q| with hL
    have hL1 : -1022 ≤ L := by
      rw [hL, ← Int.zpow_le_iff_le_log (by norm_num) habs]; exact_mod_cast hs'
    have hL2 : L < 1024 := by
      rw [hL, ← Int.lt_zpow_iff_log_lt (by norm_num) habs]; exact_mod_cast h1
    have hu : ulpExp q = L - 52 := by
      unfold ulpExp; omega
    rw [hu] at hn'
    have hlo : (2 : ℚ) ^ L ≤ |q| := by
      have := (Int.zpow_le_iff_le_log (b := 2) (by norm_num) habs).2 le_rfl
      exact_mod_cast this
    have hhi : |q| < (2 : ℚ) ^ (L + 1) := by
      have := Int.lt_zpow_succ_log_self (b := 2) (by norm_num) |q|
      exact_mod_cast this
    have e1 : |q| * 2 ^ (52 - L) = ((|n|).toNat : ℚ) := by
      rw [hn', mul_assoc, ← zpow_add₀ (by norm_num), show (L - 52 + (52 - L)) = 0 by ring,
        zpow_zero, mul_one]
      have : ((|n|).toNat : ℤ) = |n| := Int.toNat_of_nonneg (abs_nonneg n)
      exact_mod_cast this.symm
    have e2 : fracField q = (|n|).toNat - 2 ^ 52 := by
      unfold fracField
      rw [if_neg hs, e1, Nat.floor_natCast]
    have e3 : expField q = (L + 1023).toNat := by unfold expField; rw [if_neg hs]
    have e4 : ((2 ^ 52 : ℕ) : ℚ) ≤ (((|n|).toNat : ℕ) : ℚ) := by
      rw [← e1]
      calc ((2 ^ 52 : ℕ) : ℚ) = 2 ^ L * 2 ^ (52 - L) := by
            rw [← zpow_add₀ (by norm_num), show L + (52 - L) = 52 by ring]; norm_num
        _ ≤ _ := mul_le_mul_of_nonneg_right hlo (two_pow_pos _).le
    have e5 : (((|n|).toNat : ℕ) : ℚ) < ((2 ^ 53 : ℕ) : ℚ) := by
      rw [← e1]
      calc |q| * 2 ^ (52 - L) < 2 ^ (L + 1) * 2 ^ (52 - L) :=
            mul_lt_mul_of_pos_right hhi (two_pow_pos _)
        _ = _ := by rw [← zpow_add₀ (by norm_num), show L + 1 + (52 - L) = 53 by ring]; norm_num
    have e4' : 2 ^ 52 ≤ (|n|).toNat := by exact_mod_cast e4
    have e5' : (|n|).toNat < 2 ^ 53 := by exact_mod_cast e5
    refine ⟨by rw [e2]; omega, by omega, ?_, ?_⟩
    · rw [e3, e2, bitsVal, if_neg (by omega), Nat.cast_sub e4', ← e1,
        show (2 : ℚ) ^ 52 + (|q| * 2 ^ (52 - L) - ((2 ^ 52 : ℕ) : ℚ)) = |q| * 2 ^ (52 - L) by
          push_cast; ring,
        Int.toNat_of_nonneg (by omega), mul_assoc, ← zpow_add₀ (by norm_num),
        show 52 - L + (L + 1023 - 1075) = 0 by ring, zpow_zero, mul_one]
    · constructor
      · intro h; omega
      · intro h; exact absurd h hs

theorem toBits_pos {q : ℚ} (hq : rnd q = q) (h0 : 0 < q) (h1 : q < 2 ^ 1024) (nb : U64) :
    ∃ e m, toBits nb (fin q) = pack false e m ∧ m < 2 ^ 52 ∧ e < 2047 ∧ bitsVal e m = q ∧
      (e = 0 ↔ q < 2 ^ (-1022 : ℤ)) := by
  obtain ⟨a1, a2, a3, a4⟩ := fields hq h0.ne' (by rwa [abs_of_pos h0])
  rw [abs_of_pos h0] at a3 a4
  exact ⟨_, _, by simp only [toBits, decide_eq_false h0.not_gt], a1, a2, a3, a4⟩

theorem bitsVal_pos {e m : Nat} (h : e ≠ 0) : 0 < bitsVal e m := by
  rw [bitsVal, if_neg h]; positivity

/-- Positive normal numbers from their bits. -/
theorem fromBits_pack {e m : Nat} (he : e < 2047) (h0 : e ≠ 0) (hm : m < 2 ^ 52) :
    fromBits (pack false e m) = fin (bitsVal e m) := by
  have hn := pack_toNat (e := e) (by omega) hm false
  simp only [Bool.toNat_false, zero_mul, zero_add] at hn
  have hmsb : (pack false e m).msb = false := by
    rw [BitVec.msb_eq_decide, hn]
    simp
    omega
  have h1 : (e * 2 ^ 52 + m) / 2 ^ 52 % 2 ^ 11 = e := by omega
  have h2 : (e * 2 ^ 52 + m) % 2 ^ 52 = m := by omega
  unfold fromBits
  simp only [hn, hmsb, h1, h2]
  rw [if_neg (by omega)]
  have hp := bitsVal_pos (m := m) h0
  rw [bitsVal] at hp ⊢
  rw [if_neg hp.ne']
  simp

/-- `to_bits` and `from_bits` are inverse on numbers. -/
theorem fromBits_toBits {q : ℚ} (hq : rnd q = q) (h1 : |q| < 2 ^ 1024) (nb : U64) :
    fromBits (toBits nb (fin q)) = fin q := by
  by_cases h0 : q = 0
  · subst h0
    rw [toBits]
    clear hq h1
    decide +kernel
  obtain ⟨a1, a2, a3, a4⟩ := fields hq h0 h1
  have hn := pack_toNat (e := expField q) (by omega) a1 (decide (q < 0))
  have hmsb : (pack (decide (q < 0)) (expField q) (fracField q)).msb = decide (q < 0) := by
    rw [BitVec.msb_eq_decide, hn]
    by_cases h : q < 0 <;> simp [h] <;> omega
  have h1 : ((decide (q < 0)).toNat * 2 ^ 63 + expField q * 2 ^ 52 + fracField q) / 2 ^ 52 % 2 ^ 11 =
      expField q := by
    by_cases h : q < 0 <;> simp only [h, decide_true, decide_false, Bool.toNat_true, Bool.toNat_false] <;> omega
  have h2 : ((decide (q < 0)).toNat * 2 ^ 63 + expField q * 2 ^ 52 + fracField q) % 2 ^ 52 =
      fracField q := by
    by_cases h : q < 0 <;> simp only [h, decide_true, decide_false, Bool.toNat_true, Bool.toNat_false] <;> omega
  unfold fromBits toBits
  simp only [hn, hmsb, h1, h2]
  rw [if_neg (by omega)]
  rw [bitsVal] at a3
  rw [a3, if_neg (abs_pos.2 h0).ne']
  by_cases h : q < 0
  · simp [h, abs_of_neg h]
  · simp [h, abs_of_nonneg (not_lt.1 h)]

end F64

namespace Log
open F64

/-- The constant at which the code splits `[1, 2)`: `0x6a09e` in the high fraction bits. -/
def splitPoint : ℚ := 1 + 434334 / 2 ^ 20

theorem hx_toNat {e m : Nat} (he : e < 2 ^ 11) (hm : m < 2 ^ 52) :
    ((pack false e m >>> 32).setWidth 32 : U32).toNat = e * 2 ^ 20 + m / 2 ^ 32 := by
  rw [BitVec.toNat_setWidth, BitVec.toNat_ushiftRight, Nat.shiftRight_eq_div_pow, pack_toNat he hm]
  simp only [Bool.toNat_false, zero_mul, zero_add]
  omega

theorem ckI32_ok (cfg : Cfg) {z : Int} (h1 : -2 ^ 31 ≤ z) (h2 : z < 2 ^ 31) : ckI32 cfg z = .ok z := by
  rw [ckI32, if_pos ⟨h1, h2⟩]

/-- The word assembled from a high half and the low half of the old bits. -/
theorem assemble {e m e' h : Nat} (he : e < 2 ^ 11) (hm : m < 2 ^ 52) (he' : e' < 2 ^ 11)
    (hx : U32) (hh : hx.toNat = e' * 2 ^ 20 + h) (hhm : h = m / 2 ^ 32) :
    (hx.setWidth 64 <<< 32) ||| (pack false e m &&& 0xffffffff#64) = pack false e' m := by
  apply BitVec.eq_of_toNat_eq
  rw [BitVec.toNat_or, BitVec.toNat_and, BitVec.toNat_shiftLeft, BitVec.toNat_setWidth, hh,
    pack_toNat he hm, pack_toNat he' hm]
  simp only [Bool.toNat_false, zero_mul, zero_add]
  rw [show (0xffffffff#64).toNat = 2 ^ 32 - 1 from rfl, Nat.and_two_pow_sub_one_eq_mod]
  have h1 : (e' * 2 ^ 20 + h) % 2 ^ 64 = e' * 2 ^ 20 + h := Nat.mod_eq_of_lt (by omega)
  have h2 : (e' * 2 ^ 20 + h) <<< 32 % 2 ^ 64 = (e' * 2 ^ 20 + h) <<< 32 := by
    rw [Nat.shiftLeft_eq]; exact Nat.mod_eq_of_lt (by omega)
  rw [h1, h2, ← Nat.shiftLeft_add_eq_or_of_lt (by omega), Nat.shiftLeft_eq]
  omega

/-- The argument reduction: the reduced argument `x'` lies in `[c/2, c)` for `c` the split point, and
the original number is `2^k x'`. -/
theorem reduce_spec (cfg : Cfg) {e m : Nat} (he0 : e ≠ 0) (he : e < 2047) (hm : m < 2 ^ 52) {k : Int}
    (hk1 : -54 ≤ k) (hk2 : k ≤ 0) :
    ∃ (x' : ℚ) (k' : ℤ), reduce cfg (pack false e m) ((pack false e m >>> 32).setWidth 32) k =
        .ok (kernel (fin x') (k + k')) ∧ bitsVal e m = 2 ^ k' * x' ∧
      splitPoint / 2 ≤ x' ∧ x' < splitPoint ∧ -1022 ≤ k' ∧ k' ≤ 1024 ∧ ∃ n : ℤ, x' = n * 2 ^ (-53 : ℤ) := by
  have hhx := hx_toNat (e := e) (by omega) hm
  set hx : U32 := (pack false e m >>> 32).setWidth 32 with hhxdef
  have h20 : m / 2 ^ 32 < 2 ^ 20 := by omega
  set h := m / 2 ^ 32 with hh
  have hmd : m = h * 2 ^ 32 + m % 2 ^ 32 := by omega
  have hd : subU32 cfg 0x3ff00000#32 0x3fe6a09e#32 = .ok 0x95f62#32 := by
    rw [subU32, if_neg]
    · rfl
    · rintro ⟨_, h⟩; revert h; decide
  have hsum : (hx + 0x95f62#32).toNat = e * 2 ^ 20 + h + 614242 := by
    rw [BitVec.toNat_add, hhx, show (0x95f62#32).toNat = 614242 from rfl]
    omega
  have hadd : addU32 cfg hx 0x95f62#32 = .ok (hx + 0x95f62#32) := by
    rw [addU32, if_neg]
    rintro ⟨_, h'⟩
    rw [hhx, show (0x95f62#32).toNat = 614242 from rfl] at h'
    omega
  have hsh : ((hx + 0x95f62#32) >>> 20).toNat = (e * 2 ^ 20 + h + 614242) / 2 ^ 20 := by
    rw [BitVec.toNat_ushiftRight, Nat.shiftRight_eq_div_pow, hsum]
  have hint : ((hx + 0x95f62#32) >>> 20).toInt = ((e * 2 ^ 20 + h + 614242) / 2 ^ 20 : ℕ) := by
    rw [BitVec.toInt_eq_toNat_of_lt (by rw [hsh]; omega), hsh]
  have hand : ((hx + 0x95f62#32) &&& 0x000fffff#32).toNat = (e * 2 ^ 20 + h + 614242) % 2 ^ 20 := by
    rw [BitVec.toNat_and, hsum, show (0x000fffff#32).toNat = 2 ^ 20 - 1 from rfl,
      Nat.and_two_pow_sub_one_eq_mod]
  have hadd2 : addU32 cfg ((hx + 0x95f62#32) &&& 0x000fffff#32) 0x3fe6a09e#32 =
      .ok (((hx + 0x95f62#32) &&& 0x000fffff#32) + 0x3fe6a09e#32) := by
    rw [addU32, if_neg]
    rintro ⟨_, h'⟩
    rw [hand, show (0x3fe6a09e#32).toNat = 1072079006 from rfl] at h'
    omega
  have hsum2 : (((hx + 0x95f62#32) &&& 0x000fffff#32) + 0x3fe6a09e#32).toNat =
      (e * 2 ^ 20 + h + 614242) % 2 ^ 20 + 1072079006 := by
    rw [BitVec.toNat_add, hand, show (0x3fe6a09e#32).toNat = 1072079006 from rfl]
    omega
  have hmq : (m : ℚ) = h * 2 ^ 32 + (m % 2 ^ 32 : ℕ) := by exact_mod_cast hmd
  have hr0 : (0 : ℚ) ≤ (m % 2 ^ 32 : ℕ) := Nat.cast_nonneg _
  have hr1 : ((m % 2 ^ 32 : ℕ) : ℚ) < 2 ^ 32 := by
    have : m % 2 ^ 32 < 2 ^ 32 := Nat.mod_lt _ (by norm_num)
    exact_mod_cast this
  generalize ((m % 2 ^ 32 : ℕ) : ℚ) = ρ at hmq hr0 hr1
  have hmq1 : (m : ℚ) < 2 ^ 52 := by exact_mod_cast hm
  have hbv : bitsVal e m = (2 ^ 52 + m) * 2 ^ ((e : ℤ) - 1075) := by rw [bitsVal, if_neg he0]
  have hgen : ∀ e' : ℕ, e' ≠ 0 → e' < 2047 →
      (((hx + 0x95f62#32) &&& 0x000fffff#32) + 0x3fe6a09e#32).toNat = e' * 2 ^ 20 + h →
      ∀ k' : ℤ, k' = ((e * 2 ^ 20 + h + 614242) / 2 ^ 20 : ℕ) - 0x3ff →
      -1022 ≤ k' → k' ≤ 1024 →
      reduce cfg (pack false e m) hx k = .ok (kernel (fin (bitsVal e' m)) (k + k')) := by
    intro e' h0 h1 h2 k' hk' h3 h4
    rw [reduce, hd, ok_bind, hadd, ok_bind, hint, ← hk', ckI32_ok cfg (by omega) (by omega), ok_bind,
      ckI32_ok cfg (by omega) (by omega), ok_bind, hadd2, ok_bind]
    simp only
    rw [assemble (e' := e') (by omega) hm (by omega) _ h2 hh, fromBits_pack h1 h0 hm]
    rfl
  have h52 : (2 : ℚ) ^ (-52 : ℤ) = 2 * 2 ^ (-53 : ℤ) := by norm_num
  by_cases hc : h < 434334
  · refine ⟨bitsVal 1023 m, (e : ℤ) - 1023, hgen 1023 (by norm_num) (by norm_num) ?_ _ ?_ ?_ ?_,
      ?_, ?_, ?_, ?_, ?_, ⟨2 * (2 ^ 52 + m), ?_⟩⟩
    · rw [hsum2]; omega
    · omega
    · omega
    · omega
    · rw [hbv, bitsVal, if_neg (by norm_num), show ((e : ℤ) - 1075) = ((e : ℤ) - 1023) + -52 by ring,
        zpow_add₀ (by norm_num)]
      push_cast
      ring_nf
    · rw [bitsVal, if_neg (by norm_num), splitPoint]
      push_cast
      norm_num
      have : (0 : ℚ) ≤ m := Nat.cast_nonneg _
      linarith
    · rw [bitsVal, if_neg (by norm_num), splitPoint, hmq]
      have : (h : ℚ) ≤ 434333 := by exact_mod_cast (by omega : h ≤ 434333)
      norm_num
      linarith
    · omega
    · omega
    · rw [bitsVal, if_neg (by norm_num)]
      push_cast
      norm_num
      ring
  · refine ⟨bitsVal 1022 m, (e : ℤ) - 1022, hgen 1022 (by norm_num) (by norm_num) ?_ _ ?_ ?_ ?_,
      ?_, ?_, ?_, ?_, ?_, ⟨2 ^ 52 + m, ?_⟩⟩
    · rw [hsum2]; omega
    · omega
    · omega
    · omega
    · rw [hbv, bitsVal, if_neg (by norm_num), show ((e : ℤ) - 1075) = ((e : ℤ) - 1022) + -53 by ring,
        zpow_add₀ (by norm_num)]
      push_cast
      ring_nf
    · rw [bitsVal, if_neg (by norm_num), splitPoint, hmq]
      have : (434334 : ℚ) ≤ h := by exact_mod_cast not_lt.1 hc
      norm_num
      linarith
    · rw [bitsVal, if_neg (by norm_num), splitPoint]
      norm_num
      linarith
    · omega
    · omega
    · rw [bitsVal, if_neg (by norm_num)]
      push_cast
      norm_num

end Log
end HLL
