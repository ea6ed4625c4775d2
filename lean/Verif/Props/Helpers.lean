import Verif.Proofs.Hash
import Verif.Proofs.Count

/-!
# C63: the helper functions of `src/common.rs`

`extract` cuts a range of bits out of a word, `ceil` is division rounding up, and `estimate_raw`,
which the crate exports to itself but never calls, returns the same estimate as `estimate_raw_plus`
together with the number of empty registers.
-/

namespace HLL
open F64 Spec

/-- Shifting left and then right cuts out bits. -/
theorem cut_bits {x w hi lo : Nat} (h1 : lo < hi) (h2 : hi ≤ w) :
    x * 2 ^ (w - hi) % 2 ^ w / 2 ^ (w - (hi - lo)) = x / 2 ^ lo % 2 ^ (hi - lo) := by
  have e1 : (2 : Nat) ^ w = 2 ^ hi * 2 ^ (w - hi) := by rw [← pow_add]; congr 1; omega
  have e2 : (2 : Nat) ^ (w - (hi - lo)) = 2 ^ (w - hi) * 2 ^ lo := by rw [← pow_add]; congr 1; omega
  have e3 : (2 : Nat) ^ hi = 2 ^ lo * 2 ^ (hi - lo) := by rw [← pow_add]; congr 1; omega
  rw [e1, Nat.mul_mod_mul_right, e2, ← Nat.div_div_eq_div_mul,
    Nat.mul_div_cancel _ (by positivity), e3, Nat.mod_mul_right_div_self]

/-- **C63**, `u64::extract`: bits `lo` to `hi - 1` of the word. -/
theorem C63_extract64 (cfg : Cfg) (x : U64) {hi lo : Nat} (h1 : lo < hi) (h2 : hi ≤ 64) :
    ∃ y, extract64 cfg x hi lo = .ok y ∧ y.toNat = x.toNat / 2 ^ lo % 2 ^ (hi - lo) := by
  obtain ⟨y, e1, e2⟩ := extract64_ok cfg x h1 h2 (by omega)
  exact ⟨y, e1, by rw [e2, cut_bits h1 h2]⟩

/-- **C63**, `u32::extract`. -/
theorem C63_extract32 (cfg : Cfg) (x : U32) {hi lo : Nat} (h1 : lo < hi) (h2 : hi ≤ 32) :
    ∃ y, extract32 cfg x hi lo = .ok y ∧ y.toNat = x.toNat / 2 ^ lo % 2 ^ (hi - lo) := by
  obtain ⟨y, e1, e2⟩ := extract32_ok cfg x h1 h2 (by omega)
  exact ⟨y, e1, by rw [e2, cut_bits h1 h2]⟩

/-- **C63**: an empty range is not extracted as 0; the shift by the width of the word overflows. -/
theorem C63_extract_empty (cfg : Cfg) (x : U64) {k : Nat} (h1 : 1 ≤ k) (h2 : k ≤ 64) :
    extract64 cfg x k k = if cfg.overflowChecks then .error .overflow else .ok (x <<< (64 - k)) := by
  rw [extract64, subU8_ok cfg h2 (by norm_num), ok_bind, shl_ok cfg x (by omega), ok_bind,
    subU8_ok cfg le_rfl (by omega), ok_bind, Nat.sub_self, subU8_ok cfg (by norm_num) (by norm_num),
    ok_bind, shr, shAmt]
  cases cfg.overflowChecks <;> simp [bind, Except.bind, pure, Except.pure]

/-- **C63**, `ceil`: the least number of boxes of size `d` that hold `n` things. -/
theorem C63_ceil (cfg : Cfg) {n d : Nat} (hd : 0 < d) (h : n + d < 2 ^ cfg.usizeBits) :
    ∃ k, ceil cfg n d = .ok k ∧ n ≤ k * d ∧ ∀ j, n ≤ j * d → k ≤ j := by
  refine ⟨_, Registers.ceil_ok cfg hd h, ?_, fun j hj => ?_⟩
  · have := Nat.div_add_mod (n + d - 1) d
    have h2 := Nat.mod_lt (n + d - 1) hd
    rw [mul_comm]
    generalize d * ((n + d - 1) / d) = y at *
    omega
  · rw [← Nat.lt_succ_iff, Nat.div_lt_iff_lt_mul hd, Nat.succ_mul]
    omega

example : ceil Cfg.debug64 17 6 = .ok 3 := by decide
example : (extract64 Cfg.debug64 0xabcdef#64 12 4) = .ok 0xde#64 := by decide

theorem estimateRawLoop_ok (cfg : Cfg) {L : List U32} (hL : ∀ v ∈ L, v.toNat < 64) (a : F64) (z : Nat)
    (hz : z + L.length < 2 ^ cfg.usizeBits) :
    Common.estimateRawLoop cfg L (a, z) =
      .ok (((L.map BitVec.toNat).map fun r => fin (1 / 2 ^ r)).foldl add a, z + L.count 0#32) := by
  induction L generalizing a z with
  | nil => rfl
  | cons v L ih =>
    have h1 : v.toNat < 64 := hL v (by simp)
    simp only [List.length_cons] at hz
    rw [Common.estimateRawLoop, invPow_ok cfg h1, ok_bind]
    by_cases h : v = 0#32
    · rw [if_pos h, addUsize_ok cfg (by omega), ok_bind,
        ih (fun u hu => hL u (by simp [hu])) _ _ (by omega), h]
      simp [Nat.add_assoc, Nat.add_comm 1]
    · rw [if_neg h, addUsize_ok cfg (by omega), ok_bind,
        ih (fun u hu => hL u (by simp [hu])) _ _ (by omega)]
      simp [h]

/-- **C63**, `estimate_raw`: for registers below 64 it returns what `estimate_raw_plus` returns, in
all its variants, and the number of registers that are zero. -/
theorem C63_estimate_raw (cfg : Cfg) {L : List U32} (hL : ∀ v ∈ L, v.toNat < 64) (hne : L ≠ [])
    (hlen : L.length < 2 ^ cfg.usizeBits) (count : Nat) (loop neg : Bool) :
    Common.estimateRaw cfg L count = (do
      let raw ← Common.estimateRawPlus
        { cfg with constLoop := loop, sumFromNegZero := neg, std := true } L count
      pure (raw, L.count 0#32)) := by
  rw [Common.estimateRaw, estimateRawLoop_ok cfg hL _ _ (by omega), ok_bind, Common.estimateRawPlus,
    terms_ok _ (by simpa using hL), ok_bind, sumF_ok _ (by simpa using hne), Nat.zero_add]
  simp only [harmonic, num, Nat.cast_zero]
  rfl

/-- The registers 0, 3, 0, 1: the sum is 21/8. -/
example : Common.estimateRaw Cfg.debug64 [0#32, 3#32, 0#32, 1#32] 16 =
    .ok (div (mul (Common.alpha 16) (ofNat 256)) (fin (21 / 8)), 2) := by decide +kernel

end HLL
