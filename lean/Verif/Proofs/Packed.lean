import Verif.Proofs.Deserialize

/-!
# Registers with arbitrary contents

Lemmas on the packed registers for values that may come from any payload: nothing is assumed on the
number of words, on `count` or on `zeros`.
-/

namespace HLL
namespace Registers
open Spec

/-- Field `j` of the words of `r`. -/
def fld (S : Nat) (r : Registers) (j : Nat) : Nat := packed S (r.buf.map BitVec.toNat) j

/-- The number of zero fields among the first `N`. -/
def zeroFields (N : Nat) (f : Nat → Nat) : Nat := ((Finset.range N).filter fun j => f j = 0).card

theorem fld_of_word {S : Nat} (hS : GoodSize S) {r : Registers} {j : Nat} {w : U32}
    (hw : r.buf[j / perWord S]? = some w) : fld S r j = (lane S w (j % perWord S)).toNat := by
  rw [lane_toNat hS, fld, packed]
  change ((r.buf.map BitVec.toNat).getD (j / perWord S) 0) / _ % _ = _
  rw [List.getD_eq_getElem?_getD, List.getElem?_map, hw]
  rfl

theorem fld_beyond {S : Nat} {r : Registers} {j : Nat} (h : r.buf.length ≤ j / perWord S) :
    fld S r j = 0 := by
  rw [fld, packed]
  change ((r.buf.map BitVec.toNat).getD (j / perWord S) 0) / _ % _ = _
  rw [List.getD_eq_getElem?_getD, List.getElem?_map, List.getElem?_eq_none h]
  simp

theorem fld_lt {S : Nat} (r : Registers) (j : Nat) : fld S r j < 2 ^ S :=
  Nat.mod_lt _ (Nat.two_pow_pos S)

/-- Replacing one field. -/
theorem fld_set {S : Nat} (hS : GoodSize S) {r : Registers} {i : Nat} {w v : U32}
    (hw : r.buf[i / perWord S]? = some w) (hv : v.toNat < 2 ^ S) (z : Nat) :
    fld S { r with buf := r.buf.set (i / perWord S) (setLane S w (i % perWord S) v), zeros := z } =
      Function.update (fld S r) i v.toNat := by
  have hc := perWord_pos hS
  have hlt : i / perWord S < r.buf.length := by
    by_contra hcon
    rw [List.getElem?_eq_none (by omega)] at hw; cases hw
  funext j
  by_cases hq : j / perWord S = i / perWord S
  · rw [fld_of_word hS (w := setLane S w (i % perWord S) v) (by simp [hq, hlt]),
      lane_setLane hS _ _ (Nat.mod_lt _ hc) (Nat.mod_lt _ hc) hv]
    by_cases hji : j = i
    · subst hji; simp
    · have : j % perWord S ≠ i % perWord S := by
        intro hm
        apply hji
        rw [← Nat.div_add_mod j (perWord S), ← Nat.div_add_mod i (perWord S), hq, hm]
      rw [if_neg this, Function.update_of_ne hji, fld_of_word hS (by rw [hq]; exact hw)]
  · rw [Function.update_of_ne (by rintro rfl; exact hq rfl)]
    by_cases hj : j / perWord S < r.buf.length
    · rw [fld_of_word hS (w := r.buf[j / perWord S]) (by
          simp only
          rw [List.getElem?_set_ne (fun h => hq h.symm)]
          exact List.getElem?_eq_getElem hj),
        fld_of_word hS (List.getElem?_eq_getElem hj)]
    · rw [fld_beyond (by simpa using hj), fld_beyond (by omega)]

theorem subUsize_error (cfg : Cfg) (ho : cfg.overflowChecks = true) {a b : Nat} (h : a < b) :
    subUsize cfg a b = .error .overflow := by
  unfold subUsize ck
  rw [if_neg (by omega), if_pos ho]

/-- What `set_greater` does to registers with arbitrary contents. -/
theorem setGreater_cases {S : Nat} (hS : GoodSize S) (cfg : Cfg) (ho : cfg.overflowChecks = true)
    {r : Registers} (hz : r.zeros < 2 ^ cfg.usizeBits) {i : Nat} {v : U32} (hv : v.toNat < 2 ^ S) :
    (r.buf.length ≤ i / perWord S ∧ r.setGreater cfg S i v = .error .indexOutOfBounds) ∨
    (i / perWord S < r.buf.length ∧ fld S r i = 0 ∧ 0 < v.toNat ∧ r.zeros = 0 ∧
      r.setGreater cfg S i v = .error .overflow) ∨
    (i / perWord S < r.buf.length ∧ ∃ r', r.setGreater cfg S i v = .ok r' ∧
      r'.buf.length = r.buf.length ∧ r'.count = r.count ∧
      fld S r' = Function.update (fld S r) i (max (fld S r i) v.toNat) ∧
      r'.zeros ≤ r.zeros ∧
      ∀ N, i < N → r'.zeros + zeroFields N (fld S r) = r.zeros + zeroFields N (fld S r')) := by
  by_cases hlt : i / perWord S < r.buf.length
  swap
  · left
    refine ⟨by omega, ?_⟩
    rw [setGreater, index, List.getElem?_eq_none (by omega)]
    rfl
  right
  have hw : r.buf[i / perWord S]? = some r.buf[i / perWord S] := List.getElem?_eq_getElem hlt
  generalize r.buf[i / perWord S] = w at hw
  have hl := fld_of_word hS hw
  have hrm := rm_lt hS i
  have hc := perWord_pos hS
  have hrm' := Nat.mod_lt i hc
  have key : r.setGreater cfg S i v = (if v > lane S w (i % perWord S) then
      if lane S w (i % perWord S) = 0#32 then do
        let zeros ← subUsize cfg r.zeros 1
        let v ← shl cfg v (i % perWord S * S)
        let buf ← setIndex r.buf (i / perWord S) (w ||| v)
        pure { r with buf := buf, zeros := zeros }
      else do
        let m ← shl cfg (mask S) (i % perWord S * S)
        let v ← shl cfg v (i % perWord S * S)
        let buf ← setIndex r.buf (i / perWord S) ((w &&& ~~~ m) ||| v)
        pure { r with buf := buf }
      else pure r) := by
    rw [setGreater, index, hw]
    simp only [ok_bind]
    rw [shr_ok cfg w hrm]
    rfl
  rw [key]
  by_cases hgt : v > lane S w (i % perWord S)
  · have hgt' : fld S r i < v.toNat := by rw [hl]; exact BitVec.lt_def.1 hgt
    rw [if_pos hgt, max_eq_right (le_of_lt hgt')]
    by_cases h0 : lane S w (i % perWord S) = 0#32
    · have hf0 : fld S r i = 0 := by rw [hl, h0]; rfl
      rw [if_pos h0]
      by_cases hz0 : r.zeros = 0
      · left
        refine ⟨hlt, hf0, by omega, hz0, ?_⟩
        rw [subUsize_error cfg ho (by omega)]
        rfl
      · right
        refine ⟨hlt, _, ?_, ?_, ?_, fld_set hS hw hv (r.zeros - 1), ?_, ?_⟩
        · rw [subUsize_ok cfg (by omega) hz, ok_bind, shl_ok cfg v hrm, ok_bind, setIndex_ok _ hlt,
            ok_bind, setLane_of_zero hS w v hrm' h0]
          rfl
        · simp
        · rfl
        · simp
        · intro N hN
          rw [fld_set hS hw hv]
          have := card_zeros_update (f := fld S r) (v := v.toNat) hN hf0 (by omega)
          have hpos : 0 < ((Finset.range N).filter fun j => fld S r j = 0).card :=
            Finset.card_pos.2 ⟨i, by simp [hN, hf0]⟩
          simp only [zeroFields]
          omega
    · have hf0 : fld S r i ≠ 0 := by
        rw [hl]; intro hh; exact h0 (BitVec.eq_of_toNat_eq (by simpa using hh))
      right
      rw [if_neg h0]
      refine ⟨hlt, _, ?_, ?_, ?_, fld_set hS hw hv r.zeros, ?_, ?_⟩
      · rw [shl_ok cfg _ hrm, ok_bind, shl_ok cfg v hrm, ok_bind, setIndex_ok _ hlt, ok_bind]
        rfl
      · simp
      · rfl
      · simp
      · intro N hN
        rw [fld_set hS hw hv]
        have := card_zeros_update' (n := N) (f := fld S r) (v := v.toNat) hf0 (by omega)
        simp only [zeroFields]
        omega
  · right
    have hle : v.toNat ≤ fld S r i := by
      rw [hl]; exact Nat.le_of_not_lt (fun hh => hgt (BitVec.lt_def.2 hh))
    rw [if_neg hgt, max_eq_left hle, Function.update_eq_self]
    exact ⟨hlt, r, rfl, rfl, rfl, rfl, le_rfl, fun _ _ => rfl⟩

/-- Without overflow checks `set_greater` fails only if there is no such word. -/
theorem setGreater_wrapping {S : Nat} (hS : GoodSize S) (cfg : Cfg) (ho : cfg.overflowChecks = false)
    {r : Registers} {i : Nat} (v : U32) :
    if i / perWord S < r.buf.length then ∃ r', r.setGreater cfg S i v = .ok r' ∧
      r'.buf.length = r.buf.length ∧ r'.count = r.count ∧
        (r.zeros < 2 ^ cfg.usizeBits → r'.zeros < 2 ^ cfg.usizeBits)
    else r.setGreater cfg S i v = .error .indexOutOfBounds := by
  have hrm := rm_lt hS i
  split
  · rename_i hlt
    have hsub : ∃ z, subUsize cfg r.zeros 1 = .ok z ∧ z < 2 ^ cfg.usizeBits := by
      unfold subUsize ck
      have h2 : (0 : Int) < 2 ^ cfg.usizeBits := by positivity
      split
      · rename_i h
        exact ⟨_, rfl, by have := h.2; zify; omega⟩
      · rw [if_neg (by simp [ho])]
        refine ⟨_, rfl, ?_⟩
        have h1 := Int.emod_nonneg (((r.zeros : Int) - ((1 : Nat) : Int))) h2.ne'
        have h3 := Int.emod_lt_of_pos (((r.zeros : Int) - ((1 : Nat) : Int))) h2
        push_cast at h1 h3
        zify
        rw [Int.toNat_of_nonneg h1]
        exact h3
    obtain ⟨z, hz, hzl⟩ := hsub
    rw [setGreater, index_ok hlt]
    simp only [ok_bind]
    rw [shr_ok cfg _ hrm, ok_bind]
    split
    · split
      · rw [hz, ok_bind, shl_ok cfg v hrm, ok_bind, setIndex_ok _ hlt, ok_bind]
        exact ⟨_, rfl, by simp, rfl, fun _ => hzl⟩
      · rw [shl_ok cfg _ hrm, ok_bind, shl_ok cfg v hrm, ok_bind, setIndex_ok _ hlt, ok_bind]
        exact ⟨_, rfl, by simp, rfl, id⟩
    · exact ⟨_, rfl, rfl, rfl, id⟩
  · rw [setGreater, index, List.getElem?_eq_none (by omega)]
    rfl

/-! ## Iteration -/

theorem length_iter {S : Nat} (r : Registers) :
    (r.iter S).length = min r.count (perWord S * r.buf.length) := by
  rw [iter, List.length_take, List.length_flatMap]
  simp only [length_lanes]
  rw [List.map_const', List.sum_replicate_nat, Nat.mul_comm]

theorem getElem_iter {S : Nat} (hS : GoodSize S) (r : Registers) {k : Nat}
    (hk : k < (r.iter S).length) : ((r.iter S)[k]).toNat = fld S r k := by
  have hc := perWord_pos hS
  have h := hk
  rw [length_iter] at h
  have hlt : k / perWord S < r.buf.length := by
    rw [Nat.div_lt_iff_lt_mul hc, Nat.mul_comm]; omega
  have h1 : (r.iter S)[k]? = some (lane S r.buf[k / perWord S] (k % perWord S)) := by
    rw [iter, List.getElem?_take_of_lt (by omega), getElem?_flatMap_lanes hc,
      List.getElem?_eq_getElem hlt]
    rfl
  rw [List.getElem?_eq_getElem hk, Option.some.injEq] at h1
  rw [h1, fld_of_word hS (List.getElem?_eq_getElem hlt)]

theorem iter_lt {S : Nat} (hS : GoodSize S) (r : Registers) : ∀ v ∈ r.iter S, v.toNat < 2 ^ S := by
  intro v hv
  obtain ⟨k, hk, rfl⟩ := List.mem_iff_getElem.1 hv
  rw [getElem_iter hS r hk]
  exact fld_lt r k

/-! ## The loop of `merge` -/

/-- Sufficient conditions for the loop not to panic: the fields from `N` on do not grow, and there are
enough zeros for the others. -/
theorem mergeFrom_raw {S : Nat} (hS : GoodSize S) (cfg : Cfg) (ho : cfg.overflowChecks = true) (N : Nat) :
    ∀ (L : List U32) (i : Nat) (r : Registers), r.zeros < 2 ^ cfg.usizeBits →
    zeroFields N (fld S r) ≤ r.zeros →
    (∀ k (hk : k < L.length), (i + k) / perWord S < r.buf.length ∧ (L[k]).toNat < 2 ^ S ∧
      (i + k < N ∨ (L[k]).toNat ≤ fld S r (i + k))) →
    ∃ r', mergeFrom cfg S i L r = .ok r' ∧ r'.buf.length = r.buf.length ∧ r'.count = r.count ∧
      r'.zeros ≤ r.zeros ∧ zeroFields N (fld S r') ≤ r'.zeros ∧ ∀ j, N ≤ j → fld S r' j = fld S r j := by
  intro L
  induction L with
  | nil => intro i r _ h2 _; exact ⟨r, rfl, rfl, rfl, le_rfl, h2, fun _ _ => rfl⟩
  | cons v vs ih =>
    intro i r h1 h2 h3
    have h0 := h3 0 (by simp)
    simp only [List.getElem_cons_zero, Nat.add_zero] at h0
    have hstep : ∃ r', r.setGreater cfg S i v = .ok r' ∧ r'.buf.length = r.buf.length ∧
        r'.count = r.count ∧ r'.zeros ≤ r.zeros ∧ zeroFields N (fld S r') ≤ r'.zeros ∧
        (∀ j, N ≤ j → fld S r' j = fld S r j) ∧ ∀ j, i < j → fld S r' j = fld S r j := by
      rcases setGreater_cases hS cfg ho h1 (i := i) h0.2.1 with h | h | h
      · omega
      · exfalso
        obtain ⟨_, hf, hv, hz, _⟩ := h
        rcases h0.2.2 with hN | hle
        · have : 0 < zeroFields N (fld S r) :=
            Finset.card_pos.2 ⟨i, by simp [hN, hf]⟩
          omega
        · omega
      · obtain ⟨_, r', e1, e2, e3, e4, e5, e6⟩ := h
        refine ⟨r', e1, e2, e3, e5, ?_, ?_, ?_⟩
        · rcases h0.2.2 with hN | hle
          · have := e6 N hN
            omega
          · rw [max_eq_left hle, Function.update_eq_self] at e4
            have := e6 (i + 1 + N) (by omega)
            rw [e4] at this ⊢
            omega
        · intro j hj
          rw [e4]
          rcases h0.2.2 with hN | hle
          · rw [Function.update_of_ne (by omega)]
          · rw [max_eq_left hle, Function.update_eq_self]
        · intro j hj
          rw [e4, Function.update_of_ne (by omega)]
    obtain ⟨r', e1, e2, e3, e5, e6, e7, e8⟩ := hstep
    obtain ⟨r'', g1, g2, g3, g4, g5, g6⟩ := ih (i + 1) r' (by omega) e6 (by
      intro k hk
      have h := h3 (k + 1) (by simp; omega)
      simp only [List.getElem_cons_succ] at h
      rw [show i + 1 + k = i + (k + 1) by omega, e2, e8 _ (by omega)]
      exact h)
    refine ⟨r'', by rw [mergeFrom, e1, ok_bind, g1], by omega, by omega, by omega, g5, ?_⟩
    intro j hj
    rw [g6 j hj, e7 j hj]

/-- What a loop that did not panic has done. -/
theorem mergeFrom_inv {S : Nat} (hS : GoodSize S) (cfg : Cfg) (ho : cfg.overflowChecks = true) :
    ∀ (L : List U32) (i : Nat) (r r' : Registers), r.zeros < 2 ^ cfg.usizeBits →
    (∀ v ∈ L, v.toNat < 2 ^ S) → mergeFrom cfg S i L r = .ok r' →
    r'.buf.length = r.buf.length ∧ r'.count = r.count ∧ r'.zeros ≤ r.zeros ∧
    (∀ j, fld S r j ≤ fld S r' j) ∧
    (∀ k (hk : k < L.length), (i + k) / perWord S < r.buf.length ∧ (L[k]).toNat ≤ fld S r' (i + k)) ∧
    ∀ N, i + L.length ≤ N → r'.zeros + zeroFields N (fld S r) = r.zeros + zeroFields N (fld S r') := by
  intro L
  induction L with
  | nil =>
    intro i r r' _ _ h
    cases h
    exact ⟨rfl, rfl, le_rfl, fun _ => le_rfl, fun k hk => by simp at hk, fun _ _ => rfl⟩
  | cons v vs ih =>
    intro i r r'' h1 h2 h3
    rw [mergeFrom] at h3
    rcases setGreater_cases hS cfg ho h1 (i := i) (h2 v (by simp)) with h | h | h
    · rw [h.2] at h3; cases h3
    · rw [h.2.2.2.2] at h3; cases h3
    · obtain ⟨hi, r', e1, e2, e3, e4, e5, e6⟩ := h
      rw [e1, ok_bind] at h3
      obtain ⟨g1, g2, g3, g4, g5, g6⟩ := ih (i + 1) r' r'' (by omega) (fun v hv => h2 v (by simp [hv])) h3
      have hle : ∀ j, fld S r j ≤ fld S r' j := by
        intro j
        rw [e4]
        by_cases hj : j = i
        · subst hj; simp
        · rw [Function.update_of_ne hj]
      refine ⟨by omega, by omega, by omega, fun j => (hle j).trans (g4 j), ?_, ?_⟩
      · intro k hk
        cases k with
        | zero =>
          refine ⟨hi, ?_⟩
          have := g4 i
          rw [e4, Function.update_self] at this
          simp only [List.getElem_cons_zero, Nat.add_zero]
          omega
        | succ k =>
          have := g5 k (by simpa using hk)
          rw [show i + (k + 1) = i + 1 + k by omega]
          simp only [List.getElem_cons_succ]
          omega
      · intro N hN
        simp only [List.length_cons] at hN
        have := g6 N (by omega)
        have := e6 N (by omega)
        omega

/-- Without overflow checks only the indices matter. -/
theorem mergeFrom_wrapping {S : Nat} (hS : GoodSize S) (cfg : Cfg) (ho : cfg.overflowChecks = false) :
    ∀ (L : List U32) (i : Nat) (r : Registers),
    if ∀ k < L.length, (i + k) / perWord S < r.buf.length then ∃ r', mergeFrom cfg S i L r = .ok r' ∧
      r'.buf.length = r.buf.length ∧ r'.count = r.count ∧
        (r.zeros < 2 ^ cfg.usizeBits → r'.zeros < 2 ^ cfg.usizeBits)
    else mergeFrom cfg S i L r = .error .indexOutOfBounds := by
  intro L
  induction L with
  | nil => intro i r; rw [if_pos (by simp)]; exact ⟨r, rfl, rfl, rfl, id⟩
  | cons v vs ih =>
    intro i r
    have h := setGreater_wrapping hS cfg ho (r := r) (i := i) v
    by_cases hi : i / perWord S < r.buf.length
    · rw [if_pos hi] at h
      obtain ⟨r', e1, e2, e3, e4⟩ := h
      have hr := ih (i + 1) r'
      rw [mergeFrom, e1, ok_bind]
      have hiff : (∀ k < (v :: vs).length, (i + k) / perWord S < r.buf.length) ↔
          ∀ k < vs.length, (i + 1 + k) / perWord S < r'.buf.length := by
        rw [e2]
        constructor
        · intro h k hk
          rw [show i + 1 + k = i + (k + 1) by omega]
          exact h (k + 1) (by simp; omega)
        · intro h k hk
          cases k with
          | zero => exact hi
          | succ k =>
            rw [show i + (k + 1) = i + 1 + k by omega]
            exact h k (by simpa using hk)
      by_cases hall : ∀ k < vs.length, (i + 1 + k) / perWord S < r'.buf.length
      · rw [if_pos hall] at hr
        rw [if_pos (hiff.2 hall)]
        obtain ⟨r'', g1, g2, g3, g4⟩ := hr
        exact ⟨r'', g1, by omega, by omega, fun h => g4 (e4 h)⟩
      · rw [if_neg hall] at hr
        rw [if_neg (fun h => hall (hiff.1 h))]
        exact hr
    · rw [if_neg hi] at h
      rw [if_neg (fun hall => hi (hall 0 (by simp))), mergeFrom, h]
      rfl

end Registers
end HLL
