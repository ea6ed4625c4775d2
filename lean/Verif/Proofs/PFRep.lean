import Verif.Proofs.MergeRegs
import Verif.Proofs.SpecLemmas

/-! # Refinement of `HyperLogLogPF`: a sketch represents a precision and a set of 32-bit hashes -/

namespace HLL
namespace PF
open Spec

variable {I : Type}

/-- `s` is a sketch of precision `p` that has seen the 32-bit hashes `S`. -/
structure Rep (p : Nat) (s : PF I) (S : Finset Nat) : Prop where
  hp1 : 4 ≤ p
  hp2 : p ≤ 16
  prec : s.precision = p
  count : s.count = 2 ^ p
  rep : Registers.Rep 5 s.registers (2 ^ p) (reg 32 p S)
  hashes : ∀ h ∈ S, h < 2 ^ 32

/-- The number of registers fits in `usize`. -/
theorem pow_bounds (cfg : Cfg) {p : Nat} (hcfg : p < cfg.usizeBits) (hp1 : 4 ≤ p) (hp2 : p ≤ 16) :
    (16 ≤ 2 ^ p ∧ 2 ^ p ≤ 2 ^ 16) ∧ 2 * 2 ^ p ≤ 2 ^ cfg.usizeBits :=
  ⟨⟨Nat.pow_le_pow_right (n := 2) (i := 4) (by norm_num) hp1, Nat.pow_le_pow_right (by norm_num) hp2⟩, by
    rw [← pow_succ']; exact Nat.pow_le_pow_right (by norm_num) hcfg⟩

theorem new_ok (cfg : Cfg) {p : Nat} (hcfg : p < cfg.usizeBits) (hp1 : 4 ≤ p) (hp2 : p ≤ 16)
    (b : I → U64) :
    ∃ s, new cfg p b = .ok (.ok s) ∧ Rep p s ∅ ∧ s.builder = b := by
  obtain ⟨hb1, hb2⟩ := pow_bounds cfg hcfg hp1 hp2
  obtain ⟨r, h1, h2⟩ := Registers.rep_withCount cfg (S := 5) (Or.inl rfl) (n := 2 ^ p) (by omega)
  refine ⟨⟨b, 2 ^ p, p, r⟩, ?_, ⟨hp1, hp2, rfl, rfl, h2.congr (fun j _ => (reg_empty 32 p j).symm),
    by simp⟩, rfl⟩
  rw [new, if_neg (by simp only [MIN_PRECISION, MAX_PRECISION]; omega), Common.registerCount,
    shlUsizeOne_ok cfg (by omega), ok_bind, show SIZE = 5 from rfl, h1]
  rfl

theorem new_error (cfg : Cfg) {p : Nat} (hp : p < 4 ∨ 16 < p) (b : I → U64) :
    new cfg p b = .ok (.error .InvalidPrecision) := by
  rw [new, if_pos (by simp only [MIN_PRECISION, MAX_PRECISION]; omega)]; rfl

/-- `insert` adds the low 32 bits of the hash to the represented set. -/
theorem insertHash_ok (cfg : Cfg) {p : Nat} (hcfg : p < cfg.usizeBits)
    {s : PF I} {S : Finset Nat} (h : Rep p s S) (x : U64) :
    ∃ s', insertHash cfg s x = .ok s' ∧ Rep p s' (Insert.insert (x.toNat % 2 ^ 32) S) ∧
      s'.builder = s.builder := by
  obtain ⟨hb1, hb2⟩ := pow_bounds cfg hcfg h.hp1 h.hp2
  have hp1 := h.hp1
  have hp2 := h.hp2
  generalize hy : (x.setWidth 32 : U32) = y
  have hyv : y.toNat = x.toNat % 2 ^ 32 := by rw [← hy, BitVec.toNat_setWidth]
  have hxb : (y >>> (32 - p)).toNat = bucket 32 p y.toNat := by
    rw [BitVec.toNat_ushiftRight, Nat.shiftRight_eq_div_pow, bucket]
  have hbl := bucket_lt (w := 32) (p := p) (by omega) y.isLt
  have hlz := leadingZeros_guard y (p := p) (by omega) (by omega)
  have hrk := rank_le 32 p y.toNat
  have hz : (BitVec.ofNat 32 (1 + leadingZeros (y <<< p ||| 1#32 <<< (p - 1)))).toNat =
      rank 32 p y.toNat := by
    rw [hlz, BitVec.toNat_ofNat]
    exact Nat.mod_eq_of_lt (by unfold rank at hrk; omega)
  obtain ⟨r', h1, h2⟩ := h.rep.setGreater (Or.inl rfl) cfg hbl _ (by rw [hz]; omega) (by omega)
  rw [hz, ← reg_insert] at h2
  refine ⟨{ s with registers := r' }, ?_, ⟨hp1, hp2, h.prec, h.count, by rw [← hyv]; exact h2, ?_⟩, rfl⟩
  · rw [insertHash]
    simp only [hy]
    rw [h.prec, subU8_ok cfg (by omega) (by norm_num), ok_bind, shr_ok cfg y (by omega), ok_bind,
      shl_ok cfg y (by omega), ok_bind, subU8_ok cfg (by omega) (by omega), ok_bind,
      shl_ok cfg _ (by omega), ok_bind]
    simp only [show SIZE = 5 from rfl]
    rw [hxb, Nat.mod_eq_of_lt (by omega), h1]
    rfl
  · intro k hk
    rcases Finset.mem_insert.1 hk with rfl | hk
    exacts [Nat.mod_lt _ (by norm_num), h.hashes k hk]

theorem merge_ok {J : Type} (cfg : Cfg) {p : Nat} (hcfg : p < cfg.usizeBits)
    {s : PF I} {t : PF J} {S T : Finset Nat} (hs : Rep p s S) (ht : Rep p t T) :
    ∃ s', merge cfg s t = .ok (s', .ok ()) ∧ Rep p s' (S ∪ T) ∧ s'.builder = s.builder := by
  obtain ⟨hb1, hb2⟩ := pow_bounds cfg hcfg hs.hp1 hs.hp2
  obtain ⟨r2, h8, h9⟩ := Registers.mergeFrom_iter (S := 5) (Or.inl rfl) cfg (by omega) hs.rep ht.rep.toLanes
  refine ⟨{ s with registers := r2 }, ?_, ⟨hs.hp1, hs.hp2, hs.prec, hs.count,
    h9.congr (fun j _ => (reg_union 32 p S T j).symm), ?_⟩, rfl⟩
  · rw [merge, if_neg (by rw [hs.prec, ht.prec]; simp), show SIZE = 5 from rfl,
      Registers.pf_mergeRegs, h8]
    rfl
  · intro h hh
    rcases Finset.mem_union.1 hh with hh | hh
    exacts [hs.hashes h hh, ht.hashes h hh]

theorem merge_error {J : Type} (cfg : Cfg) {s : PF I} {t : PF J} (h : s.precision ≠ t.precision) :
    merge cfg s t = .ok (s, .error .IncompatiblePrecision) := by
  rw [merge, if_pos h]; rfl

end PF
end HLL
