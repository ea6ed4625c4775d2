import Verif.Proofs.Prim
import Verif.Model.Registers
import Verif.Spec
import Mathlib.Data.Finset.Card
import Mathlib.Logic.Function.Basic

/-! # Lemmas on the packed registers -/

namespace HLL
namespace Registers

/-- The register sizes used by the crate. -/
def GoodSize (S : Nat) : Prop := S = 5 ∨ S = 6

/-- Field `i` of a word. -/
def lane (S : Nat) (w : U32) (i : Nat) : U32 := (w >>> (i * S)) &&& mask S

theorem getLsbD_mask {S : Nat} (hS : GoodSize S) (j : Nat) :
    (mask S).getLsbD j = decide (j < S) := by
  rcases hS with rfl | rfl
  · have h : mask 5 = 31#32 := by decide
    rw [h]
    by_cases hj : j < 32
    · interval_cases j <;> decide
    · rw [BitVec.getLsbD_of_ge _ _ (by omega)]; symm; simp; omega
  · have h : mask 6 = 63#32 := by decide
    rw [h]
    by_cases hj : j < 32
    · interval_cases j <;> decide
    · rw [BitVec.getLsbD_of_ge _ _ (by omega)]; symm; simp; omega

theorem getLsbD_lane {S : Nat} (hS : GoodSize S) (w : U32) (i j : Nat) :
    (lane S w i).getLsbD j = (decide (j < S) && w.getLsbD (i * S + j)) := by
  rw [lane, BitVec.getLsbD_and, BitVec.getLsbD_ushiftRight, getLsbD_mask hS, Bool.and_comm]

theorem lane_lt {S : Nat} (hS : GoodSize S) (w : U32) (i : Nat) : (lane S w i).toNat < 2 ^ S := by
  rw [lane, BitVec.toNat_and]
  have : (mask S).toNat < 2 ^ S := by rcases hS with rfl | rfl <;> decide
  exact lt_of_le_of_lt Nat.and_le_right this

/-- Replacing field `i` of a word. -/
def setLane (S : Nat) (w : U32) (i : Nat) (v : U32) : U32 :=
  (w &&& ~~~ (mask S <<< (i * S))) ||| (v <<< (i * S))

theorem getLsbD_of_toNat_lt {v : U32} {S j : Nat} (hv : v.toNat < 2 ^ S) (hj : S ≤ j) :
    v.getLsbD j = false := by
  rw [BitVec.getLsbD]
  exact Nat.testBit_lt_two_pow (lt_of_lt_of_le hv (Nat.pow_le_pow_right (by norm_num) hj))

theorem perWord_mul_le {S : Nat} : perWord S * S ≤ 32 := Nat.div_mul_le_self 32 S

theorem lane_bound {S i j : Nat} (hi : i < perWord S) (hj : j < S) : i * S + j < 32 := by
  have h1 := @perWord_mul_le S
  have h2 : (i + 1) * S ≤ perWord S * S := Nat.mul_le_mul_right _ hi
  rw [Nat.add_mul] at h2
  omega

theorem lane_setLane {S : Nat} (hS : GoodSize S) (w v : U32) {i k : Nat} (hi : i < perWord S)
    (hk : k < perWord S) (hv : v.toNat < 2 ^ S) :
    lane S (setLane S w i v) k = if k = i then v else lane S w k := by
  apply BitVec.eq_of_getLsbD_eq
  intro j hj
  rw [getLsbD_lane hS]
  by_cases hjS : j < S
  · have hb := lane_bound hk hjS
    have hSpos : 0 < S := by omega
    simp only [hjS, decide_true, Bool.true_and, setLane, BitVec.getLsbD_or, BitVec.getLsbD_and,
      BitVec.getLsbD_not, BitVec.getLsbD_shiftLeft, hb, getLsbD_mask hS]
    rcases lt_trichotomy k i with h | h | h
    · have : k * S + j < i * S := by
        have : (k + 1) * S ≤ i * S := Nat.mul_le_mul_right _ h
        rw [Nat.add_mul] at this; omega
      rw [if_neg (by omega), getLsbD_lane hS]
      simp [this, hjS]
    · subst h
      rw [if_pos rfl]
      have h1 : ¬ (k * S + j < k * S) := by omega
      have h2 : k * S + j - k * S = j := by omega
      simp [h1, h2, hjS]
    · have h1 : ¬ (k * S + j < i * S) := by
        have : (i + 1) * S ≤ k * S := Nat.mul_le_mul_right _ h
        rw [Nat.add_mul] at this; omega
      have h2 : S ≤ k * S + j - i * S := by
        have : (i + 1) * S ≤ k * S := Nat.mul_le_mul_right _ h
        rw [Nat.add_mul] at this; omega
      have h3 : ¬ (k * S + j - i * S < S) := by omega
      rw [if_neg (by omega), getLsbD_lane hS, getLsbD_of_toNat_lt hv h2]
      simp [h1, h3, hjS]
  · split
    · simp only [hjS, decide_false, Bool.false_and]
      exact (getLsbD_of_toNat_lt hv (by omega)).symm
    · rw [getLsbD_lane hS]; simp [hjS]

theorem setLane_of_zero {S : Nat} (hS : GoodSize S) (w v : U32) {i : Nat} (_hi : i < perWord S)
    (h0 : lane S w i = 0#32) : w ||| (v <<< (i * S)) = setLane S w i v := by
  have : w &&& ~~~ (mask S <<< (i * S)) = w := by
    apply BitVec.eq_of_getLsbD_eq
    intro j hj
    simp only [BitVec.getLsbD_and, BitVec.getLsbD_not, BitVec.getLsbD_shiftLeft, hj,
      getLsbD_mask hS]
    by_cases h1 : j < i * S
    · simp [h1]
    · by_cases h2 : j - i * S < S
      · have := congrArg (fun x => BitVec.getLsbD x (j - i * S)) h0
        simp only [getLsbD_lane hS, BitVec.getLsbD_zero] at this
        have h3 : i * S + (j - i * S) = j := by omega
        simp [h2, h3] at this
        simp [this]
      · simp [h1, h2]
  rw [setLane, this]

theorem lanes_eq (S : Nat) (w : U32) : lanes S w = (List.range (perWord S)).map (lane S w) := rfl

theorem length_lanes (S : Nat) (w : U32) : (lanes S w).length = perWord S := by simp [lanes]

theorem getElem?_flatMap_lanes {S : Nat} (hc : 0 < perWord S) (buf : List U32) (i : Nat) :
    (buf.flatMap (lanes S))[i]? = (buf[i / perWord S]?).map fun w => lane S w (i % perWord S) := by
  induction buf generalizing i with
  | nil => simp
  | cons w ws ih =>
    rw [List.flatMap_cons]
    by_cases h : i < perWord S
    · rw [List.getElem?_append_left (by rw [length_lanes]; exact h), Nat.div_eq_of_lt h,
        Nat.mod_eq_of_lt h, lanes_eq]
      simp [h]
    · rw [List.getElem?_append_right (by rw [length_lanes]; omega), length_lanes, ih]
      have h1 : i / perWord S = (i - perWord S) / perWord S + 1 := by
        rw [← Nat.sub_add_cancel (Nat.le_of_not_lt h), Nat.add_div_right _ hc]; simp
      have h2 : (i - perWord S) % perWord S = i % perWord S := by
        conv_rhs => rw [← Nat.sub_add_cancel (Nat.le_of_not_lt h), Nat.add_mod_right]
      rw [h1, h2]
      simp

/-- `r` holds the register function `f` (on indices below `n`); the bits of its words that belong
to no register are arbitrary (deserialised registers may have any bits there). -/
structure Lanes (S : Nat) (r : Registers) (n : Nat) (f : Nat → Nat) : Prop where
  count_eq : r.count = n
  len_eq : r.buf.length = (n + perWord S - 1) / perWord S
  get_eq : ∀ j < n, ∃ w, r.buf[j / perWord S]? = some w ∧ (lane S w (j % perWord S)).toNat = f j
  zeros_eq : r.zeros = ((Finset.range n).filter fun j => f j = 0).card

theorem perWord_pos {S : Nat} (hS : GoodSize S) : 0 < perWord S := by
  rcases hS with rfl | rfl <;> decide

theorem perWord_le {S : Nat} (hS : GoodSize S) : perWord S ≤ 6 := by
  rcases hS with rfl | rfl <;> decide

theorem Lanes.lt {S : Nat} (hS : GoodSize S) {r : Registers} {n : Nat} {f : Nat → Nat}
    (h : Lanes S r n f) {j : Nat} (hj : j < n) : f j < 2 ^ S := by
  obtain ⟨w, _, hw⟩ := h.get_eq j hj
  rw [← hw]; exact lane_lt hS w _

theorem Lanes.congr {S : Nat} {r : Registers} {n : Nat} {f g : Nat → Nat}
    (h : Lanes S r n f) (hfg : ∀ j < n, f j = g j) : Lanes S r n g := by
  refine ⟨h.count_eq, h.len_eq, ?_, ?_⟩
  · intro j hj; rw [← hfg j hj]; exact h.get_eq j hj
  · rw [h.zeros_eq]
    congr 1
    apply Finset.filter_congr
    intro j hj
    rw [hfg j (Finset.mem_range.1 hj)]

theorem ceil_ok (cfg : Cfg) {n d : Nat} (hd : 0 < d) (h : n + d < 2 ^ cfg.usizeBits) :
    ceil cfg n d = .ok ((n + d - 1) / d) := by
  rw [ceil, addUsize_ok cfg h, ok_bind, subUsize_ok cfg (by omega) h]
  rfl

theorem lanes_withCount (cfg : Cfg) {S : Nat} (hS : GoodSize S) {n : Nat}
    (h : n + 6 < 2 ^ cfg.usizeBits) :
    ∃ r, withCount cfg S n = .ok r ∧ Lanes S r n (fun _ => 0) := by
  have h1 := perWord_pos hS
  have h2 := perWord_le hS
  refine ⟨⟨List.replicate ((n + perWord S - 1) / perWord S) 0#32, n, n⟩, ?_, ?_, ?_, ?_, ?_⟩
  · rw [withCount, ceil_ok cfg h1 (by omega)]; rfl
  · rfl
  · simp
  · intro j hj
    refine ⟨0#32, ?_, ?_⟩
    · have : j / perWord S < (n + perWord S - 1) / perWord S := by
        rw [Nat.div_lt_iff_lt_mul h1]
        have h3 := Nat.div_add_mod (n + perWord S - 1) (perWord S)
        have h4 := Nat.mod_lt (n + perWord S - 1) h1
        rw [Nat.mul_comm]
        omega
      simp [this]
    · simp [lane]
  · simp

theorem Lanes.index_lt {S : Nat} {r : Registers} {n : Nat} {f : Nat → Nat}
    (h : Lanes S r n f) {j : Nat} (hj : j < n) : j / perWord S < r.buf.length := by
  obtain ⟨w, hw, _⟩ := h.get_eq j hj
  by_contra hc
  rw [List.getElem?_eq_none (by omega)] at hw
  cases hw

theorem rm_lt {S : Nat} (hS : GoodSize S) (j : Nat) : j % perWord S * S < 32 := by
  have := lane_bound (S := S) (j := 0) (Nat.mod_lt j (perWord_pos hS)) (by rcases hS with rfl | rfl <;> decide)
  omega

theorem Lanes.get {S : Nat} (hS : GoodSize S) (cfg : Cfg) {r : Registers} {n : Nat} {f : Nat → Nat}
    (h : Lanes S r n f) {j : Nat} (hj : j < n) :
    ∃ v : U32, r.get cfg S j = .ok v ∧ v.toNat = f j := by
  obtain ⟨w, hw, hl⟩ := h.get_eq j hj
  refine ⟨lane S w (j % perWord S), ?_, hl⟩
  rw [Registers.get, index, hw]
  simp only [ok_bind]
  rw [shr_ok cfg w (rm_lt hS j)]
  rfl

theorem card_zeros_update {n i : Nat} {f : Nat → Nat} {v : Nat} (hi : i < n) (hf : f i = 0)
    (hv : v ≠ 0) :
    ((Finset.range n).filter fun j => Function.update f i v j = 0).card =
      ((Finset.range n).filter fun j => f j = 0).card - 1 := by
  have : ((Finset.range n).filter fun j => Function.update f i v j = 0) =
      ((Finset.range n).filter fun j => f j = 0).erase i := by
    ext j
    simp only [Finset.mem_filter, Finset.mem_erase, Finset.mem_range]
    by_cases hji : j = i
    · subst hji; simp [hv]
    · simp [Function.update_of_ne hji, hji]
  rw [this, Finset.card_erase_of_mem]
  simp [hi, hf]

theorem card_zeros_update' {n i : Nat} {f : Nat → Nat} {v : Nat} (hf : f i ≠ 0)
    (hv : v ≠ 0) :
    ((Finset.range n).filter fun j => Function.update f i v j = 0).card =
      ((Finset.range n).filter fun j => f j = 0).card := by
  congr 1
  apply Finset.filter_congr
  intro j _
  by_cases hji : j = i
  · subst hji; simp [hv, hf]
  · simp [hji]

theorem Lanes.set_word {S : Nat} (hS : GoodSize S) {r : Registers} {n : Nat} {f : Nat → Nat}
    (h : Lanes S r n f) {i : Nat} (hi : i < n) (v : U32) (hv : v.toNat < 2 ^ S) {w : U32}
    (hw : r.buf[i / perWord S]? = some w) {z : Nat}
    (hz : z = ((Finset.range n).filter fun j => Function.update f i v.toNat j = 0).card) :
    Lanes S { r with buf := r.buf.set (i / perWord S) (setLane S w (i % perWord S) v), zeros := z } n
      (Function.update f i v.toNat) := by
  have hc := perWord_pos hS
  have hlt := h.index_lt hi
  refine ⟨h.count_eq, by simpa using h.len_eq, ?_, hz⟩
  intro j hj
  obtain ⟨w', hw', hl'⟩ := h.get_eq j hj
  by_cases hq : j / perWord S = i / perWord S
  · rw [hq] at hw'
    rw [hw] at hw'
    obtain rfl : w = w' := by simpa using hw'
    refine ⟨setLane S w (i % perWord S) v, by simp [hq, hlt], ?_⟩
    rw [lane_setLane hS _ _ (Nat.mod_lt _ hc) (Nat.mod_lt _ hc) hv]
    by_cases hji : j = i
    · subst hji; simp
    · have : j % perWord S ≠ i % perWord S := by
        intro hm
        apply hji
        rw [← Nat.div_add_mod j (perWord S), ← Nat.div_add_mod i (perWord S), hq, hm]
      rw [if_neg this, Function.update_of_ne hji, hl']
  · refine ⟨w', ?_, ?_⟩
    · simp only
      rw [List.getElem?_set_ne (fun h => hq h.symm)]
      exact hw'
    · rw [Function.update_of_ne (by rintro rfl; exact hq rfl), hl']

/-- The bits of the words that belong to no register are zero. -/
def Clean (S n : Nat) (r : Registers) : Prop :=
  ∀ k w, r.buf[k]? = some w → ∀ b, w.getLsbD b = true →
    b / S < perWord S ∧ k * perWord S + b / S < n

theorem Clean.set_word {S : Nat} (hS : GoodSize S) {r : Registers} {n : Nat}
    (h : Clean S n r) {i : Nat} (hi : i < n) (v : U32) (hv : v.toNat < 2 ^ S) {w : U32}
    (hw : r.buf[i / perWord S]? = some w) {z : Nat} :
    Clean S n
      { r with buf := r.buf.set (i / perWord S) (setLane S w (i % perWord S) v), zeros := z } := by
  have hc := perWord_pos hS
  have hS0 : 0 < S := by rcases hS with rfl | rfl <;> norm_num
  intro k u hu b hb
  by_cases hk : i / perWord S = k
  · subst hk
    have hlt : i / perWord S < r.buf.length := by
      by_contra hc
      rw [List.getElem?_eq_none (by omega)] at hw; cases hw
    simp only [List.getElem?_set_self hlt, Option.some.injEq] at hu
    subst hu
    rw [setLane, BitVec.getLsbD_or, Bool.or_eq_true] at hb
    rcases hb with hb | hb
    · rw [BitVec.getLsbD_and, Bool.and_eq_true] at hb
      exact h _ w hw b hb.1
    · rw [BitVec.getLsbD_shiftLeft] at hb
      simp only [Bool.and_eq_true, Bool.not_eq_true', decide_eq_false_iff_not, not_lt] at hb
      have h1 : b - i % perWord S * S < S := by
        by_contra hcon
        rw [getLsbD_of_toNat_lt hv (by omega)] at hb
        exact absurd hb.2 (by simp)
      have h2 : b / S = i % perWord S := by
        rw [Nat.div_eq_iff hS0]
        omega
      rw [h2]
      refine ⟨Nat.mod_lt _ hc, ?_⟩
      rw [Nat.mul_comm, Nat.div_add_mod]
      exact hi
  · simp only [List.getElem?_set_ne hk] at hu
    exact h k u hu b hb

theorem Lanes.setGreater {S : Nat} (hS : GoodSize S) (cfg : Cfg) {r : Registers} {n : Nat}
    {f : Nat → Nat} (h : Lanes S r n f) {i : Nat} (hi : i < n) (v : U32) (hv : v.toNat < 2 ^ S)
    (hn : n < 2 ^ cfg.usizeBits) :
    ∃ r', r.setGreater cfg S i v = .ok r' ∧
      Lanes S r' n (Function.update f i (max (f i) v.toNat)) ∧ (Clean S n r → Clean S n r') := by
  obtain ⟨w, hw, hl⟩ := h.get_eq i hi
  have hlt := h.index_lt hi
  have hrm := rm_lt hS i
  have hc := perWord_pos hS
  have hrm' := Nat.mod_lt i hc
  rw [Registers.setGreater, index, hw]
  simp only [ok_bind]
  rw [shr_ok cfg w hrm]
  simp only [ok_bind]
  change ∃ r', (if v > lane S w (i % perWord S) then _ else _) = _ ∧ _
  by_cases hgt : v > lane S w (i % perWord S)
  · have hgt' : f i < v.toNat := by
      rw [← hl]; exact BitVec.lt_def.1 hgt
    rw [if_pos hgt, max_eq_right (le_of_lt hgt')]
    change ∃ r', (if lane S w (i % perWord S) = 0#32 then _ else _) = _ ∧ _
    by_cases h0 : lane S w (i % perWord S) = 0#32
    · have hf0 : f i = 0 := by rw [← hl, h0]; rfl
      rw [if_pos h0]
      have hzpos : 1 ≤ r.zeros := by
        rw [h.zeros_eq]
        exact Finset.card_pos.2 ⟨i, by simp [hi, hf0]⟩
      have hzle : r.zeros ≤ n := by
        rw [h.zeros_eq]
        exact le_trans (Finset.card_filter_le _ _) (by simp)
      rw [subUsize_ok cfg hzpos (by omega)]
      simp only [ok_bind]
      rw [shl_ok cfg v hrm]
      simp only [ok_bind]
      rw [setIndex_ok _ hlt]
      simp only [ok_bind]
      rw [setLane_of_zero hS w v hrm' h0]
      exact ⟨_, rfl, h.set_word hS hi v hv hw
        (by rw [h.zeros_eq, card_zeros_update hi hf0 (by omega)]),
        fun hcl => hcl.set_word hS hi v hv hw⟩
    · have hf0 : f i ≠ 0 := by
        rw [← hl]; intro hh; exact h0 (BitVec.eq_of_toNat_eq (by simpa using hh))
      rw [if_neg h0, shl_ok cfg _ hrm]
      simp only [ok_bind]
      rw [shl_ok cfg v hrm]
      simp only [ok_bind]
      rw [setIndex_ok _ hlt]
      simp only [ok_bind]
      exact ⟨_, rfl, h.set_word hS hi v hv hw
        (by rw [h.zeros_eq, card_zeros_update' hf0 (by omega)]),
        fun hcl => hcl.set_word hS hi v hv hw⟩
  · have hle : v.toNat ≤ f i := by
      rw [← hl]; exact Nat.le_of_not_lt (fun hh => hgt (BitVec.lt_def.2 hh))
    rw [if_neg hgt, max_eq_left hle, Function.update_eq_self]
    exact ⟨r, rfl, h, id⟩

theorem Lanes.length_iter {S : Nat} (hS : GoodSize S) {r : Registers} {n : Nat} {f : Nat → Nat}
    (h : Lanes S r n f) : (r.iter S).length = n := by
  have hc := perWord_pos hS
  rw [iter, List.length_take, h.count_eq, List.length_flatMap]
  simp only [length_lanes]
  rw [List.map_const', List.sum_replicate_nat, h.len_eq]
  have h3 := Nat.div_add_mod (n + perWord S - 1) (perWord S)
  have h4 := Nat.mod_lt (n + perWord S - 1) hc
  rw [Nat.mul_comm] at h3
  omega

theorem Lanes.iter_eq {S : Nat} (hS : GoodSize S) {r : Registers} {n : Nat} {f : Nat → Nat}
    (h : Lanes S r n f) : (r.iter S).map BitVec.toNat = (List.range n).map f := by
  have hc := perWord_pos hS
  apply List.ext_getElem?
  intro j
  by_cases hj : j < n
  · obtain ⟨w, hw, hl⟩ := h.get_eq j hj
    rw [List.getElem?_map, iter, List.getElem?_take_of_lt (by rw [h.count_eq]; exact hj),
      getElem?_flatMap_lanes hc, hw]
    simp [hl, hj]
  · rw [List.getElem?_eq_none (by simp [h.length_iter hS]; omega), List.getElem?_eq_none (by simp; omega)]

/-- `r` represents the register function `f` (on indices below `n`), with all other bits zero. -/
structure Rep (S : Nat) (r : Registers) (n : Nat) (f : Nat → Nat) : Prop extends
    Lanes S r n f where
  clean : Clean S n r

theorem Rep.congr {S : Nat} {r : Registers} {n : Nat} {f g : Nat → Nat}
    (h : Rep S r n f) (hfg : ∀ j < n, f j = g j) : Rep S r n g :=
  ⟨h.toLanes.congr hfg, h.clean⟩

theorem rep_withCount (cfg : Cfg) {S : Nat} (hS : GoodSize S) {n : Nat}
    (h : n + 6 < 2 ^ cfg.usizeBits) :
    ∃ r, withCount cfg S n = .ok r ∧ Rep S r n (fun _ => 0) := by
  have h1 := perWord_pos hS
  have h2 := perWord_le hS
  obtain ⟨r, hr, hl⟩ := lanes_withCount cfg hS h
  refine ⟨r, hr, hl, ?_⟩
  rw [withCount, ceil_ok cfg h1 (by omega)] at hr
  cases hr
  intro k w hk b hb
  simp only [List.getElem?_replicate] at hk
  split at hk <;> cases hk
  simp at hb

theorem Rep.setGreater {S : Nat} (hS : GoodSize S) (cfg : Cfg) {r : Registers} {n : Nat}
    {f : Nat → Nat} (h : Rep S r n f) {i : Nat} (hi : i < n) (v : U32) (hv : v.toNat < 2 ^ S)
    (hn : n < 2 ^ cfg.usizeBits) :
    ∃ r', r.setGreater cfg S i v = .ok r' ∧
      Rep S r' n (Function.update f i (max (f i) v.toNat)) := by
  obtain ⟨r', h1, h2, h3⟩ := h.toLanes.setGreater hS cfg hi v hv hn
  exact ⟨r', h1, h2, h3 h.clean⟩

theorem getLsbD_word {S : Nat} (hS : GoodSize S) {r : Registers} {n : Nat} {f : Nat → Nat}
    (h : Rep S r n f) {k : Nat} {w : U32} (hw : r.buf[k]? = some w) (b : Nat) :
    w.getLsbD b = (decide (b / S < perWord S ∧ k * perWord S + b / S < n) &&
      (f (k * perWord S + b / S)).testBit (b % S)) := by
  have hc := perWord_pos hS
  have hS0 : 0 < S := by rcases hS with rfl | rfl <;> norm_num
  by_cases hb : b / S < perWord S ∧ k * perWord S + b / S < n
  · obtain ⟨u, hu, hl⟩ := h.get_eq _ hb.2
    have e1 : (k * perWord S + b / S) / perWord S = k := by
      rw [Nat.mul_comm, Nat.mul_add_div hc, Nat.div_eq_of_lt hb.1, Nat.add_zero]
    have e2 : (k * perWord S + b / S) % perWord S = b / S := by
      rw [Nat.mul_comm, Nat.mul_add_mod, Nat.mod_eq_of_lt hb.1]
    rw [e1, hw] at hu
    cases hu
    rw [e2] at hl
    rw [← hl, decide_eq_true hb, Bool.true_and]
    have := getLsbD_lane hS w (b / S) (b % S)
    rw [decide_eq_true (Nat.mod_lt _ hS0), Bool.true_and, Nat.div_add_mod'] at this
    rw [← this]; rfl
  · rw [decide_eq_false hb, Bool.false_and]
    by_contra hcon
    exact hb (h.clean k w hw b (by simpa using hcon))

/-- The registers determine every bit of the representation. -/
theorem Rep.unique {S : Nat} (hS : GoodSize S) {r r' : Registers} {n : Nat} {f : Nat → Nat}
    (h : Rep S r n f) (h' : Rep S r' n f) : r = r' := by
  have hl : r.buf.length = r'.buf.length := by rw [h.len_eq, h'.len_eq]
  have hbuf : r.buf = r'.buf := by
    apply List.ext_getElem hl
    intro k hk hk'
    apply BitVec.eq_of_getLsbD_eq
    intro b _
    rw [getLsbD_word hS h (List.getElem?_eq_getElem hk),
      getLsbD_word hS h' (List.getElem?_eq_getElem hk')]
  have hcnt := h.count_eq.trans h'.count_eq.symm
  have hz := h.zeros_eq.trans h'.zeros_eq.symm
  cases r; cases r'
  simp only at hbuf hcnt hz
  subst hbuf hcnt hz
  rfl

end Registers
end HLL
