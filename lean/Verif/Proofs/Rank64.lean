import Verif.Proofs.SparseWrap

/-! # Rank 64 in a sparse list: registers that become zero again, until `zeros` cannot be decremented -/

namespace HLL
namespace Registers
open Spec

/-- Writing any number into a field does not change the fields below it. -/
theorem lane_setLane_below (w v : U32) {i k : Nat} (hi : i < 5) (hk : k < i) :
    lane 6 (setLane 6 w i v) k = lane 6 w k := by
  have hS : GoodSize 6 := Or.inr rfl
  apply BitVec.eq_of_getLsbD_eq
  intro j hj
  rw [getLsbD_lane hS, getLsbD_lane hS]
  by_cases hj6 : j < 6
  · have hb : k * 6 + j < 32 := by omega
    have hlt : k * 6 + j < i * 6 := by omega
    simp only [setLane, BitVec.getLsbD_or, BitVec.getLsbD_and,
      BitVec.getLsbD_not, BitVec.getLsbD_shiftLeft, hb, getLsbD_mask hS]
    simp [hlt]
  · simp [hj6]

/-- Writing 64 into a field makes it zero. -/
theorem lane_setLane_64 (w : U32) {i : Nat} (hi : i < 5) : lane 6 (setLane 6 w i 64#32) i = 0#32 := by
  have hS : GoodSize 6 := Or.inr rfl
  apply lane_eq_zero
  intro j hj
  have hb : i * 6 + j < 32 := by omega
  have h1 : ¬ i * 6 + j < i * 6 := by omega
  have h2 : i * 6 + j - i * 6 = j := by omega
  have h3 : (64#32).getLsbD j = false := by interval_cases j <;> decide
  simp only [setLane, BitVec.getLsbD_or, BitVec.getLsbD_and,
    BitVec.getLsbD_not, BitVec.getLsbD_shiftLeft, hb, getLsbD_mask hS]
  simp only [h1, h2, h3, hj]
  simp

/-- What a successful `set_greater` does, for any value, with overflow checks. -/
theorem setGreater_drop {cfg : Cfg} (ho : cfg.overflowChecks = true) {r r' : Registers}
    (hz : r.zeros < 2 ^ cfg.usizeBits) {i : Nat} {v : U32} (h : r.setGreater cfg 6 i v = .ok r') :
    r'.zeros ≤ r.zeros ∧ (∀ j, j < i ∨ (j ≠ i ∧ v.toNat < 64) → fld 6 r' j = fld 6 r j) ∧
      (fld 6 r i = 0 → if v.toNat = 0 then fld 6 r' i = 0 else r'.zeros < r.zeros) ∧
      (v.toNat = 64 → fld 6 r' i = 0) := by
  have hS : GoodSize 6 := Or.inr rfl
  have hw5 : perWord 6 = 5 := rfl
  by_cases hlt : i / 5 < r.buf.length
  swap
  · rw [setGreater, index, hw5, List.getElem?_eq_none (by omega)] at h
    cases h
  have hw : r.buf[i / 5]? = some r.buf[i / 5] := List.getElem?_eq_getElem hlt
  generalize r.buf[i / 5] = w at hw
  have hl := fld_of_word hS (r := r) (j := i) hw
  have hrm := rm_lt hS i
  have hll := lane_lt hS w (i % perWord 6)
  -- the fields afterwards
  have fin : ∀ z, (∀ j, j < i ∨ (j ≠ i ∧ v.toNat < 64) →
      fld 6 { r with buf := r.buf.set (i / 5) (setLane 6 w (i % 5) v), zeros := z } j = fld 6 r j) ∧
      (v.toNat = 64 → fld 6 { r with buf := r.buf.set (i / 5) (setLane 6 w (i % 5) v), zeros := z } i = 0) := by
    intro z
    refine ⟨fun j hj => ?_, fun h64 => ?_⟩
    · by_cases hq : j / 5 = i / 5
      · rw [fld_of_word hS (w := setLane 6 w (i % 5) v) (by rw [hw5, hq]; simp [hlt]),
          fld_of_word hS (r := r) (w := w) (by rw [hw5, hq]; exact hw), hw5]
        rcases hj with hj | ⟨hj, hv⟩
        · rw [lane_setLane_below w v (Nat.mod_lt _ (by norm_num)) (by omega)]
        · rw [lane_setLane hS w v (i := i % 5) (k := j % 5) (Nat.mod_lt i (by decide)) (Nat.mod_lt j (by decide)) hv,
            if_neg (by omega)]
      · by_cases hj' : j / perWord 6 < r.buf.length
        · rw [fld_of_word hS (w := r.buf[j / perWord 6]) (by
              simp only
              rw [List.getElem?_set_ne (by rw [hw5]; exact fun h => hq h.symm)]
              exact List.getElem?_eq_getElem hj'),
            fld_of_word hS (List.getElem?_eq_getElem hj')]
        · rw [fld_beyond (by simpa using hj'), fld_beyond (by omega)]
    · have hv : v = 64#32 := BitVec.eq_of_toNat_eq (by simpa using h64)
      rw [fld_of_word hS (w := setLane 6 w (i % 5) v) (by rw [hw5]; simp [hlt]), hw5, hv,
        lane_setLane_64 w (Nat.mod_lt _ (by norm_num))]
      rfl
  rw [setGreater, index, hw5, hw] at h
  simp only [ok_bind] at h
  rw [shr_ok cfg w (by rw [← hw5]; exact hrm)] at h
  simp only [ok_bind] at h
  rw [hw5] at hl hll hrm
  change (if v > lane 6 w (i % 5) then _ else _) = _ at h
  by_cases hgt : v > lane 6 w (i % 5)
  · have hgt' : fld 6 r i < v.toNat := by rw [hl]; exact BitVec.lt_def.1 hgt
    rw [if_pos hgt] at h
    change (if lane 6 w (i % 5) = 0#32 then _ else _) = _ at h
    by_cases h0 : lane 6 w (i % 5) = 0#32
    · rw [if_pos h0, bind_eq_ok] at h
      obtain ⟨z, hz1, h⟩ := h
      have hz2 : r.zeros ≠ 0 := by
        intro h0
        rw [subUsize_error cfg ho (by omega)] at hz1
        cases hz1
      rw [subUsize_ok cfg (by omega) hz] at hz1
      cases hz1
      rw [shl_ok cfg v hrm, ok_bind, setIndex_ok _ hlt, ok_bind,
        setLane_of_zero hS w v (i := i % 5) (Nat.mod_lt _ (by decide)) h0] at h
      cases h
      exact ⟨Nat.sub_le _ _, (fin _).1, fun _ => by rw [if_neg (by omega)]; simp only; omega, (fin _).2⟩
    · have hf0 : fld 6 r i ≠ 0 := by
        rw [hl]; intro hh; exact h0 (BitVec.eq_of_toNat_eq (by simpa using hh))
      rw [if_neg h0, shl_ok cfg _ hrm, ok_bind, shl_ok cfg v hrm, ok_bind, setIndex_ok _ hlt, ok_bind] at h
      cases h
      exact ⟨le_rfl, (fin _).1, fun h => absurd h hf0, (fin _).2⟩
  · rw [if_neg hgt] at h
    cases h
    have hle : v.toNat ≤ fld 6 r i := by
      rw [hl]; exact Nat.le_of_not_lt (fun hh => hgt (BitVec.lt_def.2 hh))
    refine ⟨le_rfl, fun _ _ => rfl, fun h => ?_, fun h => ?_⟩
    · rw [if_pos (by omega)]; exact h
    · omega

end Registers

namespace Plus
open Spec Registers
variable {I : Type} {cfg : Cfg} {ln : F64 → F64} {c : Serde.Codec I} {ords : Nat → IterOrder × IterOrder}

theorem setCodes_zeros_le (ho : cfg.overflowChecks = true) {p : Nat} : ∀ (L : List U32) (r r' : Registers),
    r.zeros < 2 ^ cfg.usizeBits → setCodes cfg p L r = .ok r' → r'.zeros ≤ r.zeros
  | [], r, r', _, h => by cases h; exact le_rfl
  | k :: ks, r, r', hz, h => by
    rw [setCodes, bind_eq_ok] at h
    obtain ⟨⟨z, j⟩, -, h⟩ := h
    simp only at h
    rw [bind_eq_ok] at h
    obtain ⟨r1, h1, h2⟩ := h
    have := (setGreater_drop ho hz h1).1
    have := setCodes_zeros_le ho ks r1 r' (by omega) h2
    omega

/-- Codes after one for register `i` that are not smaller leave the register zero, or decrement `zeros`. -/
theorem setCodes_zero_or (ho : cfg.overflowChecks = true) {p : Nat} (hp1 : 4 ≤ p) (hp2 : p ≤ 18) {i : Nat} :
    ∀ (L : List U32) (r r' : Registers), (∀ k ∈ L, i ≤ k.toNat / 2 ^ (32 - p)) → r.zeros < 2 ^ cfg.usizeBits →
    setCodes cfg p L r = .ok r' → fld 6 r i = 0 → fld 6 r' i = 0 ∨ r'.zeros < r.zeros
  | [], r, r', _, _, h, h0 => by cases h; exact Or.inl h0
  | k :: ks, r, r', hL, hz, h, h0 => by
    have hk := hL k (by simp)
    obtain ⟨z, j, hz1, hj, -, hz3⟩ := decodeHash_any cfg hp1 hp2 k
    rw [setCodes, hz1, ok_bind] at h
    simp only at h
    rw [bind_eq_ok] at h
    obtain ⟨r1, h1, h2⟩ := h
    obtain ⟨d1, d2, d3, -⟩ := setGreater_drop ho hz h1
    have hle := setCodes_zeros_le ho ks r1 r' (by omega) h2
    by_cases hji : j = i
    · subst hji
      have := d3 h0
      split at this
      · rcases setCodes_zero_or ho hp1 hp2 ks r1 r' (fun k hk => hL k (by simp [hk])) (by omega) h2 this with h | h
        · exact Or.inl h
        · exact Or.inr (by omega)
      · exact Or.inr (by omega)
    · have he : fld 6 r1 i = 0 := by
        rw [d2 i ?_, h0]
        by_cases hodd : k.toNat % 2 = 1
        · rw [if_pos hodd] at hz3
          exact Or.inl (by omega)
        · rw [if_neg hodd] at hz3
          exact Or.inr ⟨fun h => hji h.symm, hz3⟩
      rcases setCodes_zero_or ho hp1 hp2 ks r1 r' (fun k hk => hL k (by simp [hk])) (by omega) h2 he with h | h
      · exact Or.inl h
      · exact Or.inr (by omega)

theorem setCodes_append (p : Nat) : ∀ (L M : List U32) (r : Registers),
    setCodes cfg p (L ++ M) r = setCodes cfg p L r >>= setCodes cfg p M
  | [], M, r => rfl
  | k :: ks, M, r => by
    rw [List.cons_append, setCodes, setCodes]
    cases decodeHash cfg p k with
    | error e => rfl
    | ok x =>
      simp only [ok_bind]
      cases setGreater cfg SIZE r x.2 x.1 with
      | error e => rfl
      | ok r1 => simp only [ok_bind]; exact setCodes_append p ks M r1

/-- A code with rank 64 in the sparse list lets some program fail. -/
theorem never_rank64 (hcfg : 36 < cfg.usizeBits) (ho : cfg.overflowChecks = true) {s : Plus I} {L : List U32}
    (h : Never (Plus.api cfg ln c) ords [s]) (hr : s.registers = none) (hread : s.sparse.toList cfg = .ok L)
    (hsort : L.Pairwise (· ≤ ·)) (hp1 : 4 ≤ s.precision) (hp2 : s.precision ≤ 18)
    (hb : Function.Surjective s.builder) {k : U32} (hk : k ∈ L) (hodd : k.toNat % 2 = 1) :
    k.toNat / 2 % 64 + (25 - s.precision) ≠ 64 := by
  intro h64
  obtain ⟨t, rt, f, t1, t2, t3, t4, t5⟩ := never_dense (by omega) h hp1 hp2 hb
  have hpow : 2 ^ 32 = 2 ^ s.precision * 2 ^ (32 - s.precision) := by rw [← pow_add]; congr 1; omega
  -- a value for the same register
  obtain ⟨i, hi⟩ : ∃ i, i = k.toNat / 2 ^ (32 - s.precision) := ⟨_, rfl⟩
  have hil : i < 2 ^ s.precision := by
    rw [hi, Nat.div_lt_iff_lt_mul (Nat.two_pow_pos _), ← hpow]
    exact k.isLt
  have hpow64 : 2 ^ 64 = 2 ^ s.precision * 2 ^ (64 - s.precision) := by rw [← pow_add]; congr 1; omega
  have hi64 : i * 2 ^ (64 - s.precision) < 2 ^ 64 := by
    rw [hpow64]; exact Nat.mul_lt_mul_of_pos_right hil (Nat.two_pow_pos _)
  obtain ⟨x, hx⟩ := hb (BitVec.ofNat 64 (i * 2 ^ (64 - s.precision)))
  have hbk : bucket 64 s.precision (s.builder x).toNat = i := by
    rw [hx, BitVec.toNat_ofNat, Nat.mod_eq_of_lt hi64]
    exact Nat.mul_div_cancel _ (Nat.two_pow_pos _)
  obtain ⟨L1, L2, rfl⟩ := List.append_of_mem hk
  have hL2 : ∀ k' ∈ L2, i ≤ k'.toNat / 2 ^ (32 - s.precision) := by
    intro k' hk'
    rw [hi]
    apply Nat.div_le_div_right
    have := (List.pairwise_append.1 hsort).2.1
    exact BitVec.le_def.1 ((List.pairwise_cons.1 this).1 k' hk')
  have key : ∀ n (t : Plus I) (r : Registers), r.zeros ≤ n → r.zeros < 2 ^ cfg.usizeBits →
      t.registers = some r → t.precision = s.precision → t.builder = s.builder →
      ¬ Never (Plus.api cfg ln c) ords [s, t] := by
    intro n
    induction n with
    | zero => ?_
    | succ n ih => ?_
    all_goals
      intro t r hn hz t1 t2 t5 hnev
      obtain ⟨o, o', t', y, e1, e2⟩ := never_merge hnev (i := 1) (j := 0) (s := t) (t := s) rfl rfl
      rw [Plus.merge, if_neg (not_not.2 t2), hr, t1] at e1
      simp only at e1
      rw [bind_eq_ok] at e1
      obtain ⟨r1, g1, e1⟩ := e1
      rw [hread, ok_bind, bind_eq_ok] at e1
      obtain ⟨r2, g2, e1⟩ := e1
      cases e1
      have z1 := setCodes_zeros_le ho _ _ _ hz g1
      rw [setCodes_append, bind_eq_ok] at g2
      obtain ⟨r3, g3, g4⟩ := g2
      have z3 := setCodes_zeros_le ho _ _ _ (by omega) g3
      obtain ⟨z, j, hz1, hj, -, hz3⟩ := decodeHash_any cfg hp1 hp2 k
      rw [if_pos hodd, ← hi, h64] at hz3
      rw [setCodes, hz1, ok_bind] at g4
      simp only at g4
      rw [bind_eq_ok] at g4
      obtain ⟨r4, g4, g5⟩ := g4
      rw [hz3.2] at g4
      obtain ⟨d1, -, -, d4⟩ := setGreater_drop ho (by omega) g4
      have hor := setCodes_zero_or ho hp1 hp2 L2 r4 r2 hL2 (by omega) g5 (d4 hz3.1)
      have z5 := setCodes_zeros_le ho _ _ _ (by omega) g5
      obtain ⟨o2, t'', e3, e4⟩ := never_insert e2 (i := 1) (s := { t with registers := some r2 }) rfl x
      obtain ⟨v, hv, he⟩ := insertHash_raw cfg (by omega) o2 (s := { t with registers := some r2 }) rfl
        (by simp only [t2]; exact hp1) (by simp only [t2]; exact hp2) (t.builder x)
      simp only at he e3
      rw [he, bind_eq_ok] at e3
      obtain ⟨r5, e5, e6⟩ := e3
      cases e6
      simp only [t2, t5, hbk] at e5 hv
      obtain ⟨q1, -, q3, -⟩ := setGreater_drop ho (by omega) e5
      have hv0 : v.toNat ≠ 0 := by have := rank_pos 64 s.precision (s.builder x).toNat; omega
      have hlt : r5.zeros < r.zeros := by
        rcases hor with hor | hor
        · have := q3 hor
          rw [if_neg hv0] at this
          omega
        · omega
    · omega
    · exact ih { t with registers := some r5 } r5 (by omega) (by omega) rfl t2 t5 e4
  exact key _ t rt le_rfl (by
    have h1 := t3.zeros_eq
    have h2 := Finset.card_filter_le (Finset.range (2 ^ s.precision)) (fun j => f j = 0)
    have h3 : 2 ^ s.precision < 2 ^ cfg.usizeBits := Nat.pow_lt_pow_right (by norm_num) (by omega)
    rw [Finset.card_range] at h2
    omega) t1 t2 t5 t4

end Plus
end HLL
