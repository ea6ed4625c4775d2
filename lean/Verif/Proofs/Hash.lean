import Verif.Proofs.Prim
import Verif.Model.Plus
import Verif.Spec

/-! # Lemmas on ranks, buckets and sparse codes of a hash -/

namespace HLL
open Spec

theorem firstOne_zero {n h : Nat} (hr : h % 2 ^ n = 0) : firstOne n h = n + 1 := by
  induction n with
  | zero => rfl
  | succ n ih =>
    have h1 : h.testBit n = false := by
      have := Nat.testBit_mod_two_pow h (n + 1) n
      rw [hr] at this
      simpa using this.symm
    have h2 : h % 2 ^ n = 0 := by
      have : 2 ^ n ∣ 2 ^ (n + 1) := Nat.pow_dvd_pow 2 (by omega)
      exact Nat.mod_eq_zero_of_dvd (dvd_trans this (Nat.dvd_of_mod_eq_zero hr))
    rw [firstOne, h1, ih h2]
    simp; omega

theorem firstOne_of_bounds {n h k : Nat} (h1 : 2 ^ k ≤ h % 2 ^ n) (h2 : h % 2 ^ n < 2 ^ (k + 1)) :
    firstOne n h = n - k := by
  induction n with
  | zero => simp [Nat.mod_one] at h1
  | succ n ih =>
    have hkn : k ≤ n := by
      by_contra hc
      have : h % 2 ^ (n + 1) < 2 ^ (n + 1) := Nat.mod_lt _ (Nat.two_pow_pos _)
      have : 2 ^ (n + 1) ≤ 2 ^ k := Nat.pow_le_pow_right (by norm_num) (by omega)
      omega
    rw [firstOne]
    have hmod : h % 2 ^ (n + 1) = h % 2 ^ n + 2 ^ n * (h / 2 ^ n % 2) := by
      rw [pow_succ]; exact Nat.mod_mul
    have htb : h.testBit n = decide (h / 2 ^ n % 2 = 1) := by
      rw [Nat.testBit_eq_decide_div_mod_eq]
    have hlt := Nat.mod_lt h (Nat.two_pow_pos n)
    rcases Nat.mod_two_eq_zero_or_one (h / 2 ^ n) with hb | hb
    · rw [hb] at htb hmod
      simp only [Nat.mul_zero, Nat.add_zero] at hmod
      have hkn' : k < n := by
        by_contra hc
        have : k = n := by omega
        subst this
        omega
      rw [htb, ih (by omega) (by omega)]
      simp; omega
    · rw [hb] at htb hmod
      have : k = n := by
        by_contra hc
        have : 2 ^ (k + 1) ≤ 2 ^ n := Nat.pow_le_pow_right (by norm_num) (by omega)
        omega
      subst this
      rw [htb]
      simp

theorem exists_log_bounds {r : Nat} (h : r ≠ 0) : ∃ k, 2 ^ k ≤ r ∧ r < 2 ^ (k + 1) :=
  ⟨Nat.log2 r, Nat.log2_self_le h, Nat.lt_log2_self⟩

theorem firstOne_pos (n h : Nat) : 1 ≤ firstOne n h := by
  cases n with
  | zero => exact le_rfl
  | succ n => rw [firstOne]; split <;> omega

theorem firstOne_le (n h : Nat) : firstOne n h ≤ n + 1 := by
  induction n with
  | zero => exact le_rfl
  | succ n ih => rw [firstOne]; split <;> omega

theorem firstOne_mod (n h : Nat) : firstOne n (h % 2 ^ n) = firstOne n h := by
  rcases Nat.eq_zero_or_pos (h % 2 ^ n) with h0 | h0
  · rw [firstOne_zero h0, firstOne_zero (by rw [h0]; simp)]
  · obtain ⟨k, h1, h2⟩ := exists_log_bounds (Nat.pos_iff_ne_zero.1 h0)
    rw [firstOne_of_bounds h1 h2, firstOne_of_bounds (by rwa [Nat.mod_mod]) (by rwa [Nat.mod_mod])]

/-- Zero bits in front only shift the position of the first one. -/
theorem firstOne_add {n k h : Nat} (hz : h / 2 ^ n % 2 ^ k = 0) :
    firstOne (n + k) h = k + firstOne n h := by
  induction k with
  | zero => simp
  | succ k ih =>
    have h1 : h.testBit (n + k) = false := by
      have := Nat.testBit_mod_two_pow (h / 2 ^ n) (k + 1) k
      rw [hz] at this
      rw [Nat.testBit_div_two_pow, Nat.add_comm k n] at this
      simpa using this.symm
    have h2 : h / 2 ^ n % 2 ^ k = 0 := by
      have : 2 ^ k ∣ 2 ^ (k + 1) := Nat.pow_dvd_pow 2 (by omega)
      exact Nat.mod_eq_zero_of_dvd (dvd_trans this (Nat.dvd_of_mod_eq_zero hz))
    rw [← Nat.add_assoc, firstOne, h1, ih h2]
    simp; omega

/-- Counting leading zeros after shifting out the index bits and setting a guard bit gives the rank. -/
theorem leadingZeros_guard {w : Nat} (x : BitVec w) {p : Nat} (hp : 1 ≤ p) (hpw : p < w) :
    1 + leadingZeros ((x <<< p) ||| ((1#w) <<< (p - 1))) = firstOne (w - p) x.toNat := by
  have hpow : 2 ^ w = 2 ^ (w - p) * 2 ^ p := by rw [← pow_add]; congr 1; omega
  have h1 : (x <<< p).toNat = x.toNat % 2 ^ (w - p) * 2 ^ p := by
    rw [BitVec.toNat_shiftLeft, Nat.shiftLeft_eq, hpow, Nat.mul_mod_mul_right]
  have h2 : ((1#w) <<< (p - 1)).toNat = 2 ^ (p - 1) := by
    have h3 : 1 < 2 ^ w := Nat.one_lt_two_pow (by omega)
    rw [BitVec.toNat_shiftLeft, Nat.shiftLeft_eq, BitVec.toNat_ofNat, Nat.mod_eq_of_lt h3, Nat.one_mul]
    exact Nat.mod_eq_of_lt (Nat.pow_lt_pow_right (by norm_num) (by omega))
  have hpp : 2 ^ p = 2 ^ (p - 1) * 2 := by rw [← pow_succ]; congr 1; omega
  have hposp := Nat.two_pow_pos (p - 1)
  have h4 : ((x <<< p) ||| ((1#w) <<< (p - 1))).toNat =
      x.toNat % 2 ^ (w - p) * 2 ^ p + 2 ^ (p - 1) := by
    rw [BitVec.toNat_or, h1, h2, Nat.mul_comm, ← Nat.two_pow_add_eq_or_of_lt]
    omega
  rcases Nat.eq_zero_or_pos (x.toNat % 2 ^ (w - p)) with hr | hr
  · rw [firstOne_zero hr]
    rw [hr] at h4
    rw [leadingZeros_eq (k := p - 1) (by rw [h4]; omega)
      (by rw [h4, Nat.sub_add_cancel hp]; omega)]
    omega
  · obtain ⟨k, hk1, hk2⟩ := exists_log_bounds (Nat.pos_iff_ne_zero.1 hr)
    rw [firstOne_of_bounds hk1 hk2]
    have hkw : k < w - p := by
      have := Nat.mod_lt x.toNat (Nat.two_pow_pos (w - p))
      exact (Nat.pow_lt_pow_iff_right (by norm_num : 1 < 2)).1 (lt_of_le_of_lt hk1 this)
    rw [leadingZeros_eq (k := k + p)]
    · omega
    · rw [h4, pow_add]
      have := Nat.mul_le_mul_right (2 ^ p) hk1
      omega
    · rw [h4, show k + p + 1 = (k + 1) + p by omega, pow_add]
      have : (x.toNat % 2 ^ (w - p) + 1) * 2 ^ p ≤ 2 ^ (k + 1) * 2 ^ p :=
        Nat.mul_le_mul_right _ hk2
      rw [Nat.add_mul] at this
      omega

theorem extract64_ok (cfg : Cfg) (x : U64) {hi lo : Nat} (h1 : lo < hi) (h2 : hi ≤ 64) (_h3 : 1 ≤ hi) :
    ∃ y, extract64 cfg x hi lo = .ok y ∧
      y.toNat = x.toNat * 2 ^ (64 - hi) % 2 ^ 64 / 2 ^ (64 - (hi - lo)) := by
  refine ⟨(x <<< (64 - hi)) >>> (64 - (hi - lo)), ?_, ?_⟩
  · rw [extract64, subU8_ok cfg h2 (by norm_num), ok_bind, shl_ok cfg x (by omega), ok_bind,
      subU8_ok cfg (by omega) (by omega), ok_bind, subU8_ok cfg (by omega) (by omega), ok_bind,
      shr_ok cfg _ (by omega)]
  · rw [BitVec.toNat_ushiftRight, BitVec.toNat_shiftLeft, Nat.shiftLeft_eq, Nat.shiftRight_eq_div_pow]

theorem extract32_ok (cfg : Cfg) (x : U32) {hi lo : Nat} (h1 : lo < hi) (h2 : hi ≤ 32) (_h3 : 1 ≤ hi) :
    ∃ y, extract32 cfg x hi lo = .ok y ∧
      y.toNat = x.toNat * 2 ^ (32 - hi) % 2 ^ 32 / 2 ^ (32 - (hi - lo)) := by
  refine ⟨(x <<< (32 - hi)) >>> (32 - (hi - lo)), ?_, ?_⟩
  · rw [extract32, subU8_ok cfg h2 (by norm_num), ok_bind, shl_ok cfg x (by omega), ok_bind,
      subU8_ok cfg (by omega) (by omega), ok_bind, subU8_ok cfg (by omega) (by omega), ok_bind,
      shr_ok cfg _ (by omega)]
  · rw [BitVec.toNat_ushiftRight, BitVec.toNat_shiftLeft, Nat.shiftLeft_eq, Nat.shiftRight_eq_div_pow]

theorem code_lt (p h : Nat) (hh : h < 2 ^ 64) : code p h < 2 ^ 32 := by
  have := firstOne_le 39 h
  unfold code
  simp only
  split <;> omega

namespace Plus

theorem encodeHash_ok (cfg : Cfg) {p : Nat} (hp1 : 4 ≤ p) (hp2 : p ≤ 18) (h : U64) :
    ∃ c, encodeHash cfg p h = .ok c ∧ c.toNat = code p h.toNat := by
  have hlt := h.isLt
  obtain ⟨idx, hidx, hidxv⟩ := extract64_ok cfg h (hi := 64) (lo := 39) (by norm_num) le_rfl (by norm_num)
  obtain ⟨dif, hdif, hdifv⟩ := extract64_ok cfg h (hi := 64 - p) (lo := 39) (by omega) (by omega) (by omega)
  have hfo := leadingZeros_guard h (p := 25) (by norm_num) (by norm_num)
  have hfle := firstOne_le 39 h.toNat
  have hidx' : idx.toNat = h.toNat / 2 ^ 39 := by
    rw [hidxv]; simp; omega
  have hdif' : dif.toNat = h.toNat / 2 ^ 39 % 2 ^ (25 - p) := by
    rw [hdifv]
    interval_cases p <;> norm_num <;> omega
  rw [encodeHash, show subU8 cfg 64 PRIME_PRECISION = .ok 39 from subU8_ok cfg (by decide) (by norm_num)]
  simp only [ok_bind]
  rw [hidx]
  simp only [ok_bind]
  rw [subU8_ok cfg (show p ≤ 64 by omega) (by norm_num)]
  simp only [ok_bind]
  rw [hdif]
  simp only [ok_bind]
  by_cases h0 : dif = 0#64
  · have h0' : h.toNat / 2 ^ 39 % 2 ^ (25 - p) = 0 := by rw [← hdif', h0]; rfl
    rw [if_pos h0, shl_ok cfg h (by decide)]
    simp only [ok_bind]
    rw [show subU8 cfg PRIME_PRECISION 1 = .ok 24 from subU8_ok cfg (by decide) (by decide)]
    simp only [ok_bind]
    rw [shl_ok cfg 1#64 (by norm_num)]
    simp only [ok_bind]
    rw [shl_ok cfg _ (by norm_num)]
    simp only [ok_bind]
    rw [shl_ok cfg _ (by norm_num)]
    simp only [ok_bind, pure_eq_ok]
    refine ⟨_, rfl, ?_⟩
    have hfo' : 1 + leadingZeros (h <<< PRIME_PRECISION ||| 1#64 <<< 24) = firstOne 39 h.toNat := hfo
    rw [hfo']
    unfold code
    simp only [h0', if_true]
    have e1 : ((idx.setWidth 32 : U32) <<< 7).toNat = 2 ^ 7 * (h.toNat / 2 ^ 39) := by
      rw [BitVec.toNat_shiftLeft, BitVec.toNat_setWidth, hidx', Nat.shiftLeft_eq]
      omega
    have e2 : ((BitVec.ofNat 32 (firstOne 39 h.toNat)) <<< 1).toNat = 2 ^ 1 * firstOne 39 h.toNat := by
      rw [BitVec.toNat_shiftLeft, BitVec.toNat_ofNat, Nat.shiftLeft_eq]
      omega
    rw [BitVec.toNat_or, BitVec.toNat_or, e1, e2]
    rw [← Nat.two_pow_add_eq_or_of_lt (by omega)]
    have e3 : 2 ^ 7 * (h.toNat / 2 ^ 39) + 2 ^ 1 * firstOne 39 h.toNat =
      2 ^ 1 * (2 ^ 6 * (h.toNat / 2 ^ 39) + firstOne 39 h.toNat) := by ring
    rw [e3, ← Nat.two_pow_add_eq_or_of_lt (by simp)]
    simp only [BitVec.toNat_ofNat]
    omega
  · have h0' : h.toNat / 2 ^ 39 % 2 ^ (25 - p) ≠ 0 := by
      rw [← hdif']; intro hh; exact h0 (BitVec.eq_of_toNat_eq (by simpa using hh))
    rw [if_neg h0, shl_ok cfg _ (by norm_num)]
    simp only [ok_bind, pure_eq_ok]
    refine ⟨_, rfl, ?_⟩
    unfold code
    simp only [h0', if_false]
    rw [BitVec.toNat_setWidth, BitVec.toNat_shiftLeft, Nat.shiftLeft_eq, hidx']
    omega

theorem and_one_iff (c : U32) : c &&& 1#32 = 1#32 ↔ c.toNat % 2 = 1 := by
  have h : (c &&& 1#32).toNat = c.toNat % 2 := by
    rw [BitVec.toNat_and]; exact Nat.and_two_pow_sub_one_eq_mod c.toNat 1
  constructor
  · intro hh; rw [← h, hh]; rfl
  · intro hh; apply BitVec.eq_of_toNat_eq; rw [h, hh]; rfl

theorem decodeHash_ok (cfg : Cfg) {p : Nat} (hp1 : 4 ≤ p) (hp2 : p ≤ 18) {h : Nat} (hh : h < 2 ^ 64)
    {c : U32} (hc : c.toNat = code p h) :
    ∃ z, decodeHash cfg p c = .ok (z, bucket 64 p h) ∧ z.toNat = rank 64 p h := by
  have hfle := firstOne_le 39 h
  unfold code at hc
  simp only at hc
  by_cases h0 : h / 2 ^ 39 % 2 ^ (25 - p) = 0
  · rw [if_pos h0] at hc
    have hodd : c &&& 1#32 = 1#32 := (and_one_iff c).2 (by omega)
    obtain ⟨x, hx, hxv⟩ := extract32_ok cfg c (hi := 7) (lo := 1) (by norm_num) (by norm_num) (by norm_num)
    obtain ⟨y, hy, hyv⟩ := extract32_ok cfg c (hi := 32) (lo := 32 - p) (by omega) (by norm_num) (by norm_num)
    have hx' : x.toNat = firstOne 39 h := by rw [hxv]; norm_num; omega
    have hy' : y.toNat = bucket 64 p h := by
      rw [hyv, bucket, hc]
      interval_cases p <;> norm_num <;> norm_num at h0 <;> omega
    rw [decodeHash, if_pos hodd, hx]
    simp only [ok_bind]
    rw [subU8_ok cfg (show p ≤ PRIME_PRECISION by simp only [PRIME_PRECISION]; omega) (by decide)]
    simp only [ok_bind, PRIME_PRECISION]
    have hd : (BitVec.ofNat 32 (25 - p)).toNat = 25 - p := by
      rw [BitVec.toNat_ofNat]; omega
    rw [addU32_ok cfg (by rw [hx', hd]; omega)]
    simp only [ok_bind]
    rw [indexOf, if_pos hodd, subU8_ok cfg (show p ≤ 32 by omega) (by norm_num)]
    simp only [ok_bind]
    rw [hy]
    simp only [ok_bind, pure_eq_ok, hy']
    refine ⟨_, rfl, ?_⟩
    rw [BitVec.toNat_add, hx', hd, rank]
    have h39 : 64 - p = 39 + (25 - p) := by omega
    rw [h39, firstOne_add h0]
    omega
  · rw [if_neg h0] at hc
    have heven : ¬ (c &&& 1#32 = 1#32) := fun hh => by
      have := (and_one_iff c).1 hh
      omega
    obtain ⟨y, hy, hyv⟩ := extract32_ok cfg c (hi := 26) (lo := 26 - p) (by omega) (by norm_num) (by norm_num)
    have hy' : y.toNat = bucket 64 p h := by
      rw [hyv, bucket, hc]
      interval_cases p <;> norm_num <;> omega
    rw [decodeHash, if_neg heven]
    rw [show subU8 cfg 32 PRIME_PRECISION = .ok 7 from subU8_ok cfg (by decide) (by norm_num)]
    simp only [ok_bind]
    rw [addU8_ok cfg (show 7 + p < 256 by omega)]
    simp only [ok_bind]
    rw [subU8_ok cfg (show 1 ≤ 7 + p by omega) (by omega)]
    simp only [ok_bind]
    rw [shl_ok cfg c (show 7 + p - 1 < 32 by omega)]
    simp only [ok_bind]
    rw [indexOf, if_neg heven]
    rw [show addU8 cfg PRIME_PRECISION 1 = .ok 26 from addU8_ok cfg (by decide)]
    simp only [ok_bind]
    rw [subU8_ok cfg (show p ≤ PRIME_PRECISION by simp only [PRIME_PRECISION]; omega) (by decide)]
    simp only [ok_bind, PRIME_PRECISION]
    rw [addU8_ok cfg (show 25 - p + 1 < 256 by omega), show 25 - p + 1 = 26 - p by omega]
    simp only [ok_bind]
    rw [hy]
    simp only [ok_bind, pure_eq_ok, hy']
    refine ⟨_, rfl, ?_⟩
    obtain ⟨k, hk1, hk2⟩ := exists_log_bounds h0
    have hkp : k < 25 - p := by
      have := Nat.mod_lt (h / 2 ^ 39) (Nat.two_pow_pos (25 - p))
      exact (Nat.pow_lt_pow_iff_right (by norm_num : 1 < 2)).1 (lt_of_le_of_lt hk1 this)
    have hsh : (c <<< (7 + p - 1)).toNat = h / 2 ^ 39 % 2 ^ (25 - p) * 2 ^ (p + 7) := by
      rw [BitVec.toNat_shiftLeft, Nat.shiftLeft_eq, hc]
      have e1 : 2 ^ 32 = 2 ^ (25 - p) * 2 ^ (p + 7) := by rw [← pow_add]; congr 1; omega
      have e2 : 2 ^ (p + 7) = 2 * 2 ^ (7 + p - 1) := by rw [← pow_succ']; congr 1; omega
      rw [e1, ← Nat.mul_mod_mul_right, e2]
      congr 1; ring
    rw [leadingZeros_eq (k := k + (p + 7))]
    · rw [rank, firstOne_of_bounds (k := k + 39)]
      · rw [BitVec.toNat_ofNat]; omega
      · have hm : h % 2 ^ (64 - p) / 2 ^ 39 = h / 2 ^ 39 % 2 ^ (25 - p) := by
          have : 2 ^ (64 - p) = 2 ^ 39 * 2 ^ (25 - p) := by rw [← pow_add]; congr 1; omega
          rw [this, Nat.mod_mul_right_div_self]
        rw [← hm] at hk1
        rw [pow_add]
        exact (Nat.le_div_iff_mul_le (by norm_num)).1 hk1
      · have hm : h % 2 ^ (64 - p) / 2 ^ 39 = h / 2 ^ 39 % 2 ^ (25 - p) := by
          have : 2 ^ (64 - p) = 2 ^ 39 * 2 ^ (25 - p) := by rw [← pow_add]; congr 1; omega
          rw [this, Nat.mod_mul_right_div_self]
        rw [← hm] at hk2
        rw [show k + 39 + 1 = (k + 1) + 39 by omega, pow_add]
        exact (Nat.div_lt_iff_lt_mul (by norm_num)).1 hk2
    · rw [hsh, pow_add]; exact Nat.mul_le_mul_right _ hk1
    · rw [hsh, show k + (p + 7) + 1 = (k + 1) + (p + 7) by omega, pow_add 2 (k + 1)]
      exact Nat.mul_lt_mul_of_pos_right hk2 (Nat.two_pow_pos _)

end Plus
end HLL
