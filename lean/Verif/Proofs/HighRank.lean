import Verif.Proofs.Rank64

/-! # Ranks above 64 for the last register: when the field after it is read -/

namespace HLL
namespace Registers
open Spec

/-- Writing any number into a field: other fields do not become zero; a number of seven bits sets a bit
of the next field. -/
theorem lane_setLane_keep (w v : U32) {i k : Nat} (hk : k < 5) :
    (k ≠ i → lane 6 w k ≠ 0#32 → lane 6 (setLane 6 w i v) k ≠ 0#32) ∧
    (64 < v.toNat → v.toNat < 128 → k = i + 1 → lane 6 (setLane 6 w i v) k ≠ 0#32) := by
  have hS : GoodSize 6 := Or.inr rfl
  have key : ∀ j, j < 6 → (setLane 6 w i v).getLsbD (k * 6 + j) =
      ((w.getLsbD (k * 6 + j) && !(!decide (k * 6 + j < i * 6) && decide (k * 6 + j - i * 6 < 6))) ||
        (!decide (k * 6 + j < i * 6) && v.getLsbD (k * 6 + j - i * 6))) := by
    intro j hj
    have hb : k * 6 + j < 32 := by omega
    simp only [setLane, BitVec.getLsbD_or, BitVec.getLsbD_and,
      BitVec.getLsbD_not, BitVec.getLsbD_shiftLeft, hb, getLsbD_mask hS]
    simp
  refine ⟨fun hki hne => ?_, fun h1 h2 hki => ?_⟩
  · by_contra h0
    apply hne
    apply lane_eq_zero
    intro j hj
    by_contra hcon
    refine lane_ne_zero hj ?_ h0
    rw [key j hj]
    have : ¬ (¬ k * 6 + j < i * 6 ∧ k * 6 + j - i * 6 < 6) := by omega
    rw [Bool.not_eq_false] at hcon
    simp only [hcon, Bool.true_and, Bool.or_eq_true, Bool.not_eq_true', Bool.and_eq_false_iff,
      Bool.not_eq_false', decide_eq_true_eq, decide_eq_false_iff_not]
    left
    omega
  · obtain ⟨b6, -, -⟩ := seven_bits h1 h2
    refine lane_ne_zero (j := 0) (by norm_num) ?_
    rw [key 0 (by norm_num)]
    have e1 : ¬ k * 6 + 0 < i * 6 := by omega
    have e2 : k * 6 + 0 - i * 6 = 6 := by omega
    simp only [e1, e2, b6]
    simp

/-- What a successful `set_greater` does to the other fields. -/
theorem setGreater_keep {cfg : Cfg} {r r' : Registers} {i : Nat} {v : U32} (h : r.setGreater cfg 6 i v = .ok r') :
    r'.buf.length = r.buf.length ∧ r'.count = r.count ∧ (∀ j, j ≠ i → fld 6 r j ≠ 0 → fld 6 r' j ≠ 0) ∧
      (64 < v.toNat → v.toNat < 128 → i % 5 < 4 → fld 6 r' (i + 1) ≠ 0) := by
  have hS : GoodSize 6 := Or.inr rfl
  have hw5 : perWord 6 = 5 := rfl
  by_cases hlt : i / 5 < r.buf.length
  swap
  · rw [setGreater, index, hw5, List.getElem?_eq_none (by omega)] at h
    cases h
  have hw : r.buf[i / 5]? = some r.buf[i / 5] := List.getElem?_eq_getElem hlt
  generalize r.buf[i / 5] = w at hw
  have hl := fld_of_word hS (r := r) (j := i) hw
  have hrm := rm_lt hS i
  have hll := lane_lt hS w (i % perWord 6)
  have nz : ∀ x : U32, x.toNat ≠ 0 ↔ x ≠ 0#32 := fun x =>
    not_congr ⟨fun h => BitVec.eq_of_toNat_eq (by simpa using h), fun h => by rw [h]; rfl⟩
  have fin : ∀ z, (∀ j, j ≠ i → fld 6 r j ≠ 0 →
      fld 6 { r with buf := r.buf.set (i / 5) (setLane 6 w (i % 5) v), zeros := z } j ≠ 0) ∧
      (64 < v.toNat → v.toNat < 128 → i % 5 < 4 →
        fld 6 { r with buf := r.buf.set (i / 5) (setLane 6 w (i % 5) v), zeros := z } (i + 1) ≠ 0) := by
    intro z
    refine ⟨fun j hj hne => ?_, fun h1 h2 h3 => ?_⟩
    · by_cases hq : j / 5 = i / 5
      · rw [fld_of_word hS (w := setLane 6 w (i % 5) v) (by rw [hw5, hq]; simp [hlt]), hw5, nz]
        rw [fld_of_word hS (r := r) (w := w) (by rw [hw5, hq]; exact hw), hw5, nz] at hne
        exact (lane_setLane_keep w v (Nat.mod_lt _ (by norm_num))).1 (by omega) hne
      · by_cases hj' : j / perWord 6 < r.buf.length
        · rw [fld_of_word hS (w := r.buf[j / perWord 6]) (by
              simp only
              rw [List.getElem?_set_ne (by rw [hw5]; exact fun h => hq h.symm)]
              exact List.getElem?_eq_getElem hj')]
          rwa [fld_of_word hS (List.getElem?_eq_getElem hj')] at hne
        · exact absurd (fld_beyond (by omega)) hne
    · rw [fld_of_word hS (w := setLane 6 w (i % 5) v) (by
        rw [hw5, show (i + 1) / 5 = i / 5 by omega]; simp [hlt]), hw5, nz]
      exact (lane_setLane_keep w v (Nat.mod_lt _ (by norm_num))).2 h1 h2 (by omega)
  rw [setGreater, index, hw5, hw] at h
  simp only [ok_bind] at h
  rw [shr_ok cfg w (by rw [← hw5]; exact hrm)] at h
  simp only [ok_bind] at h
  rw [hw5] at hl hll hrm
  change (if v > lane 6 w (i % 5) then _ else _) = _ at h
  by_cases hgt : v > lane 6 w (i % 5)
  · rw [if_pos hgt] at h
    change (if lane 6 w (i % 5) = 0#32 then _ else _) = _ at h
    by_cases h0 : lane 6 w (i % 5) = 0#32
    · rw [if_pos h0, bind_eq_ok] at h
      obtain ⟨z, hz1, h⟩ := h
      rw [shl_ok cfg v hrm, ok_bind, setIndex_ok _ hlt, ok_bind,
        setLane_of_zero hS w v (i := i % 5) (Nat.mod_lt _ (by decide)) h0] at h
      cases h
      exact ⟨by simp, rfl, (fin _).1, (fin _).2⟩
    · rw [if_neg h0, shl_ok cfg _ hrm, ok_bind, shl_ok cfg v hrm, ok_bind, setIndex_ok _ hlt, ok_bind] at h
      cases h
      exact ⟨by simp, rfl, (fin _).1, (fin _).2⟩
  · rw [if_neg hgt] at h
    cases h
    refine ⟨rfl, rfl, fun _ _ h => h, fun h => ?_⟩
    exact absurd (BitVec.lt_def.2 (by omega)) hgt

end Registers

namespace Plus
open Spec Registers
variable {I : Type} {cfg : Cfg} {ln : F64 → F64} {c : Serde.Codec I} {ords : Nat → IterOrder × IterOrder}

theorem pow_mod_five (p : Nat) : 2 ^ p % 5 ≠ 0 := by
  induction p with
  | zero => decide
  | succ p ih => rw [pow_succ]; omega

theorem setCodes_keep (ho : cfg.overflowChecks = true) {p : Nat} (hp1 : 4 ≤ p) (hp2 : p ≤ 18) :
    ∀ (L : List U32) (r r' : Registers), r.zeros < 2 ^ cfg.usizeBits → setCodes cfg p L r = .ok r' →
    r'.buf.length = r.buf.length ∧ r'.count = r.count ∧
      ((fld 6 r (2 ^ p) ≠ 0 ∨ ∃ k ∈ L, k.toNat % 2 = 1 ∧ 64 < k.toNat / 2 % 64 + (25 - p) ∧
        k.toNat / 2 ^ (32 - p) + 1 = 2 ^ p) → fld 6 r' (2 ^ p) ≠ 0)
  | [], r, r', _, h => by cases h; exact ⟨rfl, rfl, by simp⟩
  | k :: ks, r, r', hz, h => by
    obtain ⟨z, j, hz1, hj, -, hz3⟩ := decodeHash_any cfg hp1 hp2 k
    rw [setCodes, hz1, ok_bind] at h
    simp only at h
    rw [bind_eq_ok] at h
    obtain ⟨r1, h1, h2⟩ := h
    have hle := (setGreater_drop ho hz h1).1
    obtain ⟨g1, g2, g3, g4⟩ := setGreater_keep h1
    obtain ⟨e1, e2, e3⟩ := setCodes_keep ho hp1 hp2 ks r1 r' (by omega) h2
    refine ⟨by omega, by omega, fun h => e3 ?_⟩
    rcases h with h | ⟨a, ha, a1, a2, a3⟩
    · exact Or.inl (g3 _ (by omega) h)
    · rcases List.mem_cons.1 ha with rfl | ha
      · rw [if_pos a1] at hz3
        left
        have h5 := pow_mod_five p
        have := g4 (by omega) (by omega) (by omega)
        rwa [hz3.2, a3] at this
      · exact Or.inr ⟨a, ha, a1, a2, a3⟩

/-- The number `m` fits the words of a sketch of this precision, and if it is larger than the number of
registers there are no ranks above 64 for the last register. -/
theorem never_high {B : Nat} (hcfg : 39 ≤ cfg.usizeBits) (ho : cfg.overflowChecks = true)
    (hB : B < 2 ^ (cfg.usizeBits - 1)) {s : Plus I} {L : List U32}
    (h : Never (Plus.api cfg ln c) ords [s]) (ht : Typed cfg.usizeBits s)
    (hs : SRaw cfg B s L) (hp1 : 4 ≤ s.precision) (hp2 : s.precision ≤ 18)
    (hb : Function.Surjective s.builder) :
    2 ^ s.precision ≤ 5 * ((s.counts.1 + 4) / 5) ∧ s.counts.1 ≤ 5 * ((2 ^ s.precision + 4) / 5) ∧
      (2 ^ s.precision < s.counts.1 → ∀ k : U32, k ∈ L ∨ k ∈ s.tmpset → k.toNat % 2 = 1 →
        k.toNat / 2 ^ (32 - s.precision) + 1 = 2 ^ s.precision →
        k.toNat / 2 % 64 + (25 - s.precision) ≤ 64) := by
  have hS : GoodSize 6 := Or.inr rfl
  have hw : perWord 6 = 5 := rfl
  obtain ⟨t, rt, f, t1, t2, t3, t4, -⟩ := never_dense (by omega) h hp1 hp2 hb
  obtain ⟨o, o', s', x, e1, e2⟩ := never_merge t4 (i := 0) (j := 1) (s := s) (t := t) rfl rfl
  rw [merge_some cfg o o' (by rw [t2]; simp) t1, bind_eq_ok] at e1
  obtain ⟨s1, e1, e3⟩ := e1
  obtain ⟨r0, L', r1, a1, a2, a3, a4, a5, a6, a7, a8⟩ := hs.toDense hcfg hB o e1
  rw [a4] at e3
  simp only [unwrap, ok_bind, show SIZE = 6 from rfl] at e3
  rw [Registers.plus_mergeRegs, bind_eq_ok] at e3
  obtain ⟨r2, e3, e4⟩ := e3
  cases e4
  obtain ⟨c1, c2, c3, c4, c5⟩ := withCount_inv ho a1
  have d1 := setCodes_zeros_le ho _ _ _ (by omega) a2
  obtain ⟨d2, d3, d4⟩ := setCodes_keep ho hp1 hp2 L' r0 r1 (by omega) a2
  obtain ⟨b1, b2, b3, b4, b5, b6⟩ := mergeFrom_inv hS cfg ho _ _ _ _ (by omega) (iter_lt hS _) e3
  have hu := never_usable (by omega) ho (s := { s1 with registers := some r2 }) (r := r2) (i := 0)
    ⟨by simp only [a5]; exact ht.prec, by simp only [a7]; exact ht.c1, by simp only [a7]; exact ht.c2,
      by simp only [a7]; exact ht.c3, ?_, ?_⟩ (by simp only [a6]; exact hb) rfl (by simp only [a5]; exact hp1)
      (by simp only [a5]; exact hp2) e2 rfl
  · simp only [a5] at hu
    obtain ⟨u1, u2, u3⟩ := hu
    refine ⟨by omega, ?_, ?_⟩
    · by_contra hcon
      have := (u3 (5 * ((2 ^ s.precision + 4) / 5)) (by omega) (by omega)).1
      omega
    · intro hm k hk k1 k2
      by_contra hcon
      have h0 : fld 6 r2 (2 ^ s.precision) = 0 := (u3 (2 ^ s.precision) (by omega) le_rfl).2
      have := d4 (Or.inr ⟨k, (a3 k).2 hk, k1, by omega, k2⟩)
      have := b4 (2 ^ s.precision)
      omega
  · simp only [a8]; exact Nat.two_pow_pos _
  · intro r hr
    cases hr
    omega

end Plus
end HLL
