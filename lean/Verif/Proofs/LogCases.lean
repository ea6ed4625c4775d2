import Verif.Proofs.Bits

/-!
# The branches of `log` in `src/log.rs`
-/

namespace HLL.Log
open F64

/-- The bit pattern of some NaN. -/
def IsNanBits (b : U64) : Prop := b.toNat / 2 ^ 52 % 2 ^ 11 = 2047 ∧ b.toNat % 2 ^ 52 ≠ 0

instance (b : U64) : Decidable (IsNanBits b) := by unfold IsNanBits; infer_instance

theorem lt_iff (a b : U32) : a < b ↔ a.toNat < b.toNat := Iff.rfl
theorem le_iff (a b : U32) : a ≤ b ↔ a.toNat ≤ b.toNat := Iff.rfl

theorem shr31_ne {hx : U32} : hx >>> 31 ≠ 0#32 ↔ 2 ^ 31 ≤ hx.toNat := by
  rw [Ne, ← BitVec.toNat_inj, BitVec.toNat_ushiftRight, Nat.shiftRight_eq_div_pow,
    show (0#32).toNat = 0 from rfl]
  omega

theorem shl1_eq {ui : U64} : ui <<< 1 = 0#64 ↔ ui.toNat % 2 ^ 63 = 0 := by
  rw [← BitVec.toNat_inj, BitVec.toNat_shiftLeft, Nat.shiftLeft_eq, show (0#64).toNat = 0 from rfl]
  have := ui.isLt
  omega

theorem shl32_eq {ui : U64} : ui <<< 32 = 0#64 ↔ ui.toNat % 2 ^ 32 = 0 := by
  rw [← BitVec.toNat_inj, BitVec.toNat_shiftLeft, Nat.shiftLeft_eq, show (0#64).toNat = 0 from rfl]
  have := ui.isLt
  omega

theorem hx_any (ui : U64) : ((ui >>> 32).setWidth 32 : U32).toNat = ui.toNat / 2 ^ 32 := by
  have := ui.isLt
  rw [BitVec.toNat_setWidth, BitVec.toNat_ushiftRight, Nat.shiftRight_eq_div_pow]
  omega

theorem log_zero (cfg : Cfg) (nb : U64) : log cfg nb (fin 0) = .ok (inf true) := by
  have h : toBits nb (fin 0) = 0#64 := by rw [toBits]; decide +kernel
  have h2 : div (neg (ofDec 10 1)) (mul (fin 0) (fin 0)) = inf true := by decide +kernel
  rw [log, h]
  exact congrArg Except.ok h2

theorem log_negZero (cfg : Cfg) (nb : U64) : log cfg nb negZero = .ok (inf true) := by
  have h : toBits nb negZero = 0x8000000000000000#64 := by rw [toBits]; decide +kernel
  have h2 : div (neg (ofDec 10 1)) (mul negZero negZero) = inf true := by decide +kernel
  rw [log, h]
  exact congrArg Except.ok h2

theorem log_one (cfg : Cfg) (nb : U64) : log cfg nb (fin 1) = .ok (fin 0) := by
  have h : toBits nb (fin 1) = 0x3ff0000000000000#64 := by rw [toBits]; decide +kernel
  rw [log, h]
  rfl

theorem log_inf (cfg : Cfg) (nb : U64) : log cfg nb (inf false) = .ok (inf false) := by
  have h : toBits nb (inf false) = 0x7ff0000000000000#64 := by rw [toBits]; decide +kernel
  rw [log, h]
  rfl

theorem log_neg_inf (cfg : Cfg) (nb : U64) : log cfg nb (inf true) = .ok nan := by
  have h : toBits nb (inf true) = 0xfff0000000000000#64 := by rw [toBits]; decide +kernel
  rw [log, h]
  rfl

theorem log_nan (cfg : Cfg) {nb : U64} (hnb : IsNanBits nb) : log cfg nb nan = .ok nan := by
  obtain ⟨h1, h2⟩ := hnb
  have hx := hx_any nb
  have hlt := nb.isLt
  have hb : toBits nb nan = nb := rfl
  rw [log]
  simp only [hb]
  by_cases hs : 2 ^ 63 ≤ nb.toNat
  · rw [if_pos (Or.inr (shr31_ne.2 (by rw [hx]; omega))), if_neg (by rw [shl1_eq]; omega),
      if_pos (shr31_ne.2 (by rw [hx]; omega))]
    rfl
  · rw [if_neg, if_pos]
    · rfl
    · rw [le_iff, hx, show (0x7ff00000#32).toNat = 2146435072 from rfl]; omega
    · rw [not_or, lt_iff, hx, shr31_ne, hx, show (0x00100000#32).toNat = 1048576 from rfl]; omega

theorem log_neg (cfg : Cfg) (nb : U64) {q : ℚ} (hq : rnd q = q) (h0 : q < 0) (h1 : -2 ^ 1024 < q) :
    log cfg nb (fin q) = .ok nan := by
  have habs : |q| < 2 ^ 1024 := by rw [abs_of_neg h0]; linarith
  obtain ⟨a1, a2, a3, a4⟩ := fields hq h0.ne habs
  have hb : toBits nb (fin q) = pack true (expField q) (fracField q) := by
    simp only [toBits, h0, decide_true]
  have hn := pack_toNat (e := expField q) (by omega) a1 true
  rw [Bool.toNat_true] at hn
  have hx := hx_any (pack true (expField q) (fracField q))
  have hz : ¬ (expField q = 0 ∧ fracField q = 0) := by
    rintro ⟨e1, e2⟩
    rw [e1, e2, bitsVal, if_pos rfl] at a3
    simp at a3
    exact h0.ne (abs_eq_zero.1 a3.symm)
  rw [log, hb]
  simp only
  rw [if_pos (Or.inr (shr31_ne.2 (by rw [hx]; omega))), if_neg (by rw [shl1_eq]; omega),
    if_pos (shr31_ne.2 (by rw [hx]; omega)), sub_fin, sub_self]
  decide +kernel

/-- Multiplication by `2^54` is exact on subnormal numbers. -/
theorem scale_up {q : ℚ} (hq : rnd q = q) (h0 : 0 < q) (h1 : q < 2 ^ (-1022 : ℤ)) :
    mul (fin q) (fromBits 0x4350000000000000#64) = fin (q * 2 ^ 54) ∧ rnd (q * 2 ^ 54) = q * 2 ^ 54 ∧
      2 ^ (-1022 : ℤ) ≤ q * 2 ^ 54 ∧ q * 2 ^ 54 < 2 ^ 1024 := by
  have hc : fromBits 0x4350000000000000#64 = fin (2 ^ 54) := by decide +kernel
  obtain ⟨n, hn⟩ := rnd_grid q
  rw [hq] at hn
  have hn2 : |n| ≤ 2 ^ 53 := by
    have h2 : (n : ℚ) < 2 ^ 52 := by
      have : (n : ℚ) = q * 2 ^ (1074 : ℤ) := by
        rw [hn, mul_assoc, ← zpow_add₀ (by norm_num)]; norm_num
      rw [this]
      calc q * 2 ^ (1074 : ℤ) < 2 ^ (-1022 : ℤ) * 2 ^ (1074 : ℤ) :=
            mul_lt_mul_of_pos_right h1 (two_pow_pos _)
        _ = _ := by rw [← zpow_add₀ (by norm_num)]; norm_num
    have h3 : 0 < (n : ℚ) := by
      rw [hn] at h0
      exact pos_of_mul_pos_left h0 (two_pow_pos _).le
    have h2' : n < 2 ^ 52 := by exact_mod_cast h2
    have h3' : 0 < n := by exact_mod_cast h3
    rw [abs_of_pos h3']; omega
  have hq2 : q * 2 ^ 54 = n * 2 ^ (-1020 : ℤ) := by
    rw [hn, mul_assoc, ← zpow_natCast, ← zpow_add₀ (by norm_num)]; norm_num
  have hr : rnd (q * 2 ^ 54) = q * 2 ^ 54 := by
    rw [hq2]; exact rnd_of_int_mul hn2 (by norm_num)
  have hn1 : (1 : ℚ) ≤ n := by
    have h3 : 0 < (n : ℚ) := by
      rw [hn] at h0
      exact pos_of_mul_pos_left h0 (two_pow_pos _).le
    have h3' : 0 < n := by exact_mod_cast h3
    exact_mod_cast h3'
  have hlo : (2 : ℚ) ^ (-1022 : ℤ) ≤ q * 2 ^ 54 := by
    rw [hq2]
    calc (2 : ℚ) ^ (-1022 : ℤ) ≤ 1 * 2 ^ (-1020 : ℤ) := by
          rw [one_mul]; exact zpow_le_zpow_right₀ (by norm_num) (by norm_num)
      _ ≤ _ := mul_le_mul_of_nonneg_right hn1 (two_pow_pos _).le
  have hhi : q * 2 ^ 54 ≤ 2 ^ 1023 := by
    calc q * 2 ^ 54 ≤ 2 ^ (-1022 : ℤ) * 2 ^ (54 : ℤ) := by
          exact_mod_cast (mul_lt_mul_of_pos_right h1 (by positivity)).le
      _ = 2 ^ (-968 : ℤ) := by rw [← zpow_add₀ (by norm_num)]; norm_num
      _ ≤ 2 ^ (1023 : ℤ) := zpow_le_zpow_right₀ (by norm_num) (by norm_num)
      _ = 2 ^ 1023 := zpow_ofNat 2 1023
  refine ⟨?_, hr, hlo, lt_of_le_of_lt hhi (pow_lt_pow_right₀ (by norm_num) (by norm_num))⟩
  rw [hc, mul_fin_nonneg h0.le (by positivity) hhi, hr]

/-- Positive finite arguments other than 1: the exact argument reduction. -/
theorem log_pos (cfg : Cfg) (nb : U64) {q : ℚ} (hq : rnd q = q) (h0 : 0 < q) (h1 : q < 2 ^ 1024)
    (hne : q ≠ 1) :
    ∃ (x : ℚ) (k : ℤ), log cfg nb (fin q) = .ok (kernel (fin x) k) ∧ q = 2 ^ k * x ∧
      splitPoint / 2 ≤ x ∧ x < splitPoint ∧ -1076 ≤ k ∧ k ≤ 1024 ∧ ∃ n : ℤ, x = n * 2 ^ (-53 : ℤ) := by
  obtain ⟨e, m, hb, hm, he, hv, he0⟩ := toBits_pos hq h0 h1 nb
  have hn := pack_toNat (e := e) (by omega) hm false
  simp only [Bool.toNat_false, zero_mul, zero_add] at hn
  have hx := hx_toNat (e := e) (by omega) hm
  have hsh : ¬ ((pack false e m >>> 32).setWidth 32 : U32) >>> 31 ≠ 0#32 := by
    rw [shr31_ne, hx]; omega
  by_cases hz : e = 0
  · have hlt := he0.1 hz
    obtain ⟨b1, b2, b3, b4⟩ := scale_up hq h0 hlt
    obtain ⟨e', m', hb', hm', he', hv', he0'⟩ := toBits_pos b2 (by positivity) b4 nb
    have hz' : e' ≠ 0 := fun h => absurd (he0'.1 h) (not_lt.2 b3)
    obtain ⟨x, k, r1, r2, r3, r4, r5, r6, r7⟩ := reduce_spec cfg hz' he' hm' (k := -54) le_rfl (by norm_num)
    have hm0 : m ≠ 0 := by
      rintro rfl
      rw [hz, bitsVal, if_pos rfl] at hv
      simp at hv
      exact h0.ne hv
    refine ⟨x, -54 + k, ?_, ?_, r3, r4, by omega, by omega, r7⟩
    · rw [log]
      simp only [hb]
      rw [if_pos (Or.inl _), if_neg, if_neg hsh, ckI32_ok cfg (by norm_num) (by norm_num), ok_bind, b1,
        hb', zero_sub, r1]
      · rw [shl1_eq, hn]; omega
      · rw [lt_iff, hx, show (0x00100000#32).toNat = 1048576 from rfl]; omega
    · rw [zpow_add₀ (by norm_num), mul_assoc, ← r2, hv']
      rw [show (2 : ℚ) ^ 54 = 2 ^ (54 : ℤ) from rfl, mul_left_comm, ← zpow_add₀ (by norm_num)]
      norm_num
  · obtain ⟨x, k, r1, r2, r3, r4, r5, r6, r7⟩ := reduce_spec cfg hz he hm (k := 0) (by norm_num) le_rfl
    refine ⟨x, k, ?_, by rw [← r2, hv], r3, r4, by omega, by omega, r7⟩
    rw [zero_add] at r1
    rw [log]
    simp only [hb]
    rw [if_neg, if_neg, if_neg, r1]
    · rintro ⟨c1, c2⟩
      rw [shl32_eq, hn] at c2
      rw [← BitVec.toNat_inj, hx, show (0x3ff00000#32).toNat = 1072693248 from rfl] at c1
      have : e = 1023 ∧ m = 0 := by omega
      apply hne
      rw [← hv, this.1, this.2, bitsVal, if_neg (by norm_num)]
      norm_num
    · rw [le_iff, hx, show (0x7ff00000#32).toNat = 2146435072 from rfl]; omega
    · rw [not_or]
      refine ⟨?_, hsh⟩
      rw [lt_iff, hx, show (0x00100000#32).toNat = 1048576 from rfl]; omega

end HLL.Log
