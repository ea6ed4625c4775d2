import Verif.Proofs.PlusUse

/-! # Ranks that do not fit in a register: what `set_greater` does with numbers of seven bits -/

namespace HLL
namespace Registers
open Spec

/-! ## Values of seven bits -/

theorem seven_bits {v : U32} (h1 : 64 < v.toNat) (h2 : v.toNat < 128) :
    v.getLsbD 6 = true ∧ (∀ j, 7 ≤ j → v.getLsbD j = false) ∧ ∃ j, j < 6 ∧ v.getLsbD j = true := by
  refine ⟨?_, fun j hj => ?_, ?_⟩
  · rw [BitVec.getLsbD, Nat.testBit, Nat.shiftRight_eq_div_pow, show v.toNat / 2 ^ 6 = 1 by omega]; rfl
  · exact getLsbD_of_toNat_lt (S := 7) h2 hj
  · by_contra hcon
    push Not at hcon
    have h3 : v.toNat % 2 ^ 6 = 0 := by
      apply Nat.eq_of_testBit_eq
      intro j
      rw [Nat.testBit_mod_two_pow, Nat.zero_testBit]
      by_cases hj : j < 6
      · have := hcon j hj
        rw [BitVec.getLsbD] at this
        simp [this]
      · simp [hj]
    omega

theorem lane_ne_zero {w : U32} {k j : Nat} (hj : j < 6) (h : w.getLsbD (k * 6 + j) = true) : lane 6 w k ≠ 0#32 := by
  intro h0
  have := congrArg (fun x => BitVec.getLsbD x j) h0
  simp [getLsbD_lane (Or.inr rfl), hj, h] at this

theorem lane_eq_zero {w : U32} {k : Nat} (h : ∀ j, j < 6 → w.getLsbD (k * 6 + j) = false) : lane 6 w k = 0#32 := by
  apply BitVec.eq_of_getLsbD_eq
  intro j hj
  rw [getLsbD_lane (Or.inr rfl), BitVec.getLsbD_zero]
  by_cases hj6 : j < 6
  · simp [h j hj6]
  · simp [hj6]

/-- Writing a number of seven bits into a field of six: the field is not zero afterwards, the next field
receives a bit, the others stay. -/
theorem lane_setLane7 (w : U32) {v : U32} (h1 : 64 < v.toNat) (h2 : v.toNat < 128) {i k : Nat} (hi : i < 5)
    (hk : k < 5) :
    (k = i → lane 6 (setLane 6 w i v) k ≠ 0#32) ∧
    (lane 6 w k ≠ 0#32 → lane 6 (setLane 6 w i v) k ≠ 0#32) ∧
    (k ≠ i → k ≠ i + 1 → lane 6 (setLane 6 w i v) k = lane 6 w k) := by
  have hS : GoodSize 6 := Or.inr rfl
  obtain ⟨b6, b7, j0, hj0, bj⟩ := seven_bits h1 h2
  have key : ∀ j, j < 6 → (setLane 6 w i v).getLsbD (k * 6 + j) =
      ((w.getLsbD (k * 6 + j) && !(!decide (k * 6 + j < i * 6) && decide (k * 6 + j - i * 6 < 6))) ||
        (!decide (k * 6 + j < i * 6) && v.getLsbD (k * 6 + j - i * 6))) := by
    intro j hj
    have hb : k * 6 + j < 32 := by omega
    simp only [setLane, BitVec.getLsbD_or, BitVec.getLsbD_and,
      BitVec.getLsbD_not, BitVec.getLsbD_shiftLeft, hb, getLsbD_mask hS]
    simp
  have hself : k = i → lane 6 (setLane 6 w i v) k ≠ 0#32 := by
    rintro rfl
    refine lane_ne_zero hj0 ?_
    rw [key j0 hj0]
    have e1 : ¬ k * 6 + j0 < k * 6 := by omega
    have e2 : k * 6 + j0 - k * 6 = j0 := by omega
    simp [e1, e2, bj]
  refine ⟨hself, fun hne => ?_, fun h3 h4 => ?_⟩
  · by_cases hki : k = i
    · exact hself hki
    · by_contra h0
      apply hne
      apply lane_eq_zero
      intro j hj
      by_contra hcon
      refine lane_ne_zero hj ?_ h0
      rw [key j hj]
      have : ¬ (¬ k * 6 + j < i * 6 ∧ k * 6 + j - i * 6 < 6) := by omega
      rw [Bool.not_eq_false] at hcon
      simp only [hcon, Bool.true_and, Bool.or_eq_true, Bool.not_eq_true', Bool.and_eq_false_iff,
        Bool.not_eq_false', decide_eq_true_eq, decide_eq_false_iff_not]
      left
      omega
  · apply BitVec.eq_of_getLsbD_eq
    intro j hj
    rw [getLsbD_lane hS, getLsbD_lane hS]
    by_cases hj6 : j < 6
    · rw [key j hj6]
      by_cases hlt : k * 6 + j < i * 6
      · simp [hlt]
      · have e1 : ¬ k * 6 + j - i * 6 < 6 := by omega
        have e2 := b7 (k * 6 + j - i * 6) (by omega)
        simp [e1, e2]
    · simp [hj6]

/-- The same for the fields of all words. -/
theorem fld_set7 {r : Registers} {i : Nat} {w v : U32} (hw : r.buf[i / 5]? = some w) (h1 : 64 < v.toNat)
    (h2 : v.toNat < 128) (z : Nat) {r' : Registers}
    (hr' : r' = { r with buf := r.buf.set (i / 5) (setLane 6 w (i % 5) v), zeros := z }) :
    fld 6 r' i ≠ 0 ∧ (∀ j, fld 6 r j ≠ 0 → fld 6 r' j ≠ 0) ∧
      ∀ j, j ≠ i → j ≠ i + 1 → fld 6 r' j = fld 6 r j := by
  subst hr'
  have hS : GoodSize 6 := Or.inr rfl
  have hw5 : perWord 6 = 5 := rfl
  have hlt : i / 5 < r.buf.length := by
    by_contra hcon
    rw [List.getElem?_eq_none (by omega)] at hw; cases hw
  have same : ∀ j, j / 5 = i / 5 →
      fld 6 { r with buf := r.buf.set (i / 5) (setLane 6 w (i % 5) v), zeros := z } j =
        (lane 6 (setLane 6 w (i % 5) v) (j % 5)).toNat := fun j hq =>
    fld_of_word hS (by rw [hw5, hq]; simp [hlt])
  have other : ∀ j, j / 5 ≠ i / 5 →
      fld 6 { r with buf := r.buf.set (i / 5) (setLane 6 w (i % 5) v), zeros := z } j = fld 6 r j := by
    intro j hq
    by_cases hj : j / perWord 6 < r.buf.length
    · rw [fld_of_word hS (w := r.buf[j / perWord 6]) (by
          simp only
          rw [List.getElem?_set_ne (by rw [hw5]; exact fun h => hq h.symm)]
          exact List.getElem?_eq_getElem hj),
        fld_of_word hS (List.getElem?_eq_getElem hj)]
    · rw [fld_beyond (by simpa using hj), fld_beyond (by omega)]
  have nz : ∀ x : U32, x.toNat ≠ 0 ↔ x ≠ 0#32 := fun x =>
    not_congr ⟨fun h => BitVec.eq_of_toNat_eq (by simpa using h), fun h => by rw [h]; rfl⟩
  refine ⟨?_, fun j hj => ?_, fun j hj1 hj2 => ?_⟩
  · rw [same i rfl, nz]
    exact (lane_setLane7 w h1 h2 (Nat.mod_lt i (by norm_num)) (Nat.mod_lt i (by norm_num))).1 rfl
  · by_cases hq : j / 5 = i / 5
    · rw [same j hq, nz]
      refine (lane_setLane7 w h1 h2 (Nat.mod_lt i (by norm_num)) (Nat.mod_lt j (by norm_num))).2.1 ?_
      have hf := fld_of_word hS (r := r) (j := j) (w := w) (by rw [hw5, hq]; exact hw)
      rw [hw5] at hf
      rwa [← nz, ← hf]
    · rwa [other j hq]
  · by_cases hq : j / 5 = i / 5
    · rw [same j hq, (lane_setLane7 w h1 h2 (Nat.mod_lt i (by norm_num)) (Nat.mod_lt j (by norm_num))).2.2
        (by omega) (by omega)]
      exact (fld_of_word hS (r := r) (j := j) (by rw [hw5, hq]; exact hw)).symm
    · exact other j hq

end Registers

namespace Plus
open Spec Registers

theorem setGreater_usable7 {cfg : Cfg} {p : Nat} {r : Registers}
    (h : UsableDense p r) (hz : r.zeros < 2 ^ cfg.usizeBits) {i : Nat}
    (hi : i + 1 < 2 ^ p ∨ (i < 2 ^ p ∧ r.count ≤ 2 ^ p)) {v : U32} (hv1 : 64 < v.toNat) (hv2 : v.toNat < 128) :
    ∃ r', r.setGreater cfg 6 i v = .ok r' ∧ UsableDense p r' ∧ r'.zeros ≤ r.zeros ∧ r'.count = r.count := by
  have hS : GoodSize 6 := Or.inr rfl
  have hw5 : perWord 6 = 5 := rfl
  have u4 := h.1
  have u5 := h.2.1
  rw [usable_zeros] at u5
  have hlt : i / 5 < r.buf.length := by omega
  have hw : r.buf[i / 5]? = some r.buf[i / 5] := List.getElem?_eq_getElem hlt
  generalize r.buf[i / 5] = w at hw
  have hl := fld_of_word hS (r := r) (j := i) hw
  have hrm := rm_lt hS i
  have hll := lane_lt hS w (i % perWord 6)
  have hgt : v > lane 6 w (i % perWord 6) := BitVec.lt_def.2 (by omega)
  have fin : ∀ z, zeroFields (2 ^ p) (fld 6 r) ≤ z + (if fld 6 r i = 0 then 1 else 0) →
      UsableDense p { r with buf := r.buf.set (i / 5) (setLane 6 w (i % 5) v), zeros := z } := by
    intro z hz'
    obtain ⟨f1, f2, f3⟩ := fld_set7 hw hv1 hv2 z rfl
    suffices hle : zeroFields (2 ^ p)
        (fld 6 { r with buf := r.buf.set (i / 5) (setLane 6 w (i % 5) v), zeros := z }) ≤ z by
      rcases hi with hi | ⟨hi, hc⟩
      · exact h.setRegs (by simp) rfl hle fun j hj => f3 j (by omega) (by omega)
      · exact ⟨by simpa using u4, by rw [usable_zeros]; exact hle, fun j hj hj2 => by
          rw [lt_min_iff] at hj
          exact absurd hj.1 (by simp only; omega)⟩
    refine le_trans ?_ (Nat.sub_le_iff_le_add.2 hz')
    have hsub : ((Finset.range (2 ^ p)).filter fun j =>
        fld 6 { r with buf := r.buf.set (i / 5) (setLane 6 w (i % 5) v), zeros := z } j = 0) ⊆
        ((Finset.range (2 ^ p)).filter fun j => fld 6 r j = 0).erase i := by
      intro j hj
      rw [Finset.mem_filter] at hj
      rw [Finset.mem_erase, Finset.mem_filter]
      refine ⟨?_, hj.1, ?_⟩
      · rintro rfl; exact f1 hj.2
      · by_contra hne; exact f2 j hne hj.2
    refine (Finset.card_le_card hsub).trans ?_
    rw [Finset.card_erase_eq_ite]
    simp only [Finset.mem_filter, Finset.mem_range, zeroFields, show i < 2 ^ p by omega, true_and]
    split <;> simp
  have key : r.setGreater cfg 6 i v =
      (if lane 6 w (i % perWord 6) = 0#32 then do
        let zeros ← subUsize cfg r.zeros 1
        let v ← shl cfg v (i % perWord 6 * 6)
        let buf ← setIndex r.buf (i / perWord 6) (w ||| v)
        pure { r with buf := buf, zeros := zeros }
      else do
        let m ← shl cfg (mask 6) (i % perWord 6 * 6)
        let v ← shl cfg v (i % perWord 6 * 6)
        let buf ← setIndex r.buf (i / perWord 6) ((w &&& ~~~ m) ||| v)
        pure { r with buf := buf }) := by
    rw [setGreater, index, hw5, hw]
    simp only [ok_bind]
    rw [shr_ok cfg w (by rw [← hw5]; exact hrm)]
    simp only [ok_bind]
    rw [hw5] at hgt
    exact if_pos hgt
  rw [key]
  by_cases h0 : lane 6 w (i % perWord 6) = 0#32
  · have hf0 : fld 6 r i = 0 := by rw [hl, h0]; rfl
    have : 0 < zeroFields (2 ^ p) (fld 6 r) :=
      Finset.card_pos.2 ⟨i, by simp [hf0]; omega⟩
    rw [if_pos h0]
    refine ⟨_, ?_, fin (r.zeros - 1) (by rw [if_pos hf0]; omega), by simp, rfl⟩
    rw [subUsize_ok cfg (by omega) hz, ok_bind, shl_ok cfg v hrm, ok_bind, setIndex_ok _ (show i / perWord 6 < r.buf.length from hlt),
      ok_bind, setLane_of_zero hS w v (Nat.mod_lt _ (by decide)) h0]
    rfl
  · have hf0 : fld 6 r i ≠ 0 := by
      rw [hl]; intro hh; exact h0 (BitVec.eq_of_toNat_eq (by simpa using hh))
    rw [if_neg h0]
    refine ⟨_, ?_, fin r.zeros (by rw [if_neg hf0]; omega), le_rfl, rfl⟩
    rw [shl_ok cfg _ hrm, ok_bind, shl_ok cfg v hrm, ok_bind, setIndex_ok _ (show i / perWord 6 < r.buf.length from hlt), ok_bind]
    rfl

end Plus
end HLL
