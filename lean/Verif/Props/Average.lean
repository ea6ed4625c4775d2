import Verif.Proofs.Average
import Verif.Props.State

/-!
# C42: the average number of empty registers

The hashes of `n` distinct values are independent and uniform when every assignment
`h : Fin n → Fin (2^64)` of hashes to them is equally likely; the expectation is then the plain
average over all assignments.
-/

namespace HLL
open Spec F64

/-- The builder that gives value `i` the hash `h i`. -/
def builderOf {n : Nat} (h : Fin n → Fin (2 ^ 64)) : Fin n → U64 := fun i => BitVec.ofFin (h i)

/-- Create a sketch and insert the values `0, …, n-1`. -/
def insertAll (p : Nat) {n : Nat} (h : Fin n → Fin (2 ^ 64)) : List (Op (Fin n)) :=
  .new p (builderOf h) :: (List.finRange n).map fun v => .insert .insert 0 v

theorem contents_inserts {w maxP p n : Nat} (b : Fin n → U64) :
    ∀ (vs : List (Fin n)) (S : Finset Nat),
    contentsFrom w maxP [⟨b, p, S⟩] (vs.map fun v => .insert .insert 0 v) =
      [⟨b, p, S ∪ (vs.map fun v => (b v).toNat % 2 ^ w).toFinset⟩]
  | [], S => by simp [contentsFrom]
  | v :: vs, S => by
    rw [List.map_cons, contentsFrom, List.foldl_cons, ← contentsFrom]
    simp only [effect, List.getElem?_cons_zero, List.set_cons_zero]
    rw [contents_inserts b vs, List.map_cons, List.toFinset_cons]
    congr 2
    ext y; simp only [Finset.mem_union, Finset.mem_insert]; tauto

theorem contents_insertAll {w maxP p n : Nat} (h1 : 4 ≤ p) (h2 : p ≤ maxP)
    (h : Fin n → Fin (2 ^ 64)) :
    (contents w maxP (insertAll p h))[0]? = some ⟨builderOf h, p, hashSet w h⟩ := by
  have e : contents w maxP (insertAll p h) = contentsFrom w maxP [⟨builderOf h, p, ∅⟩]
      ((List.finRange n).map fun v => .insert .insert 0 v) := by
    rw [contents, insertAll, contentsFrom, List.foldl_cons]
    simp only [effect, if_pos (And.intro h1 h2), List.nil_append]
  rw [e, contents_inserts]
  simp only [List.getElem?_cons_zero, Finset.empty_union]
  congr 2

theorem hashSet_64 {n : Nat} (h : Fin n → Fin (2 ^ 64)) :
    hashSet 64 h = (((List.finRange n).map (builderOf h)).map BitVec.toNat).toFinset := by
  ext y
  simp only [hashSet, Finset.mem_image, Finset.mem_univ, true_and, List.mem_toFinset,
    List.mem_map, List.mem_finRange, exists_exists_eq_and, builderOf, BitVec.toNat_ofFin]
  constructor
  · rintro ⟨i, rfl⟩; exact ⟨i, (Nat.mod_eq_of_lt (h i).isLt).symm⟩
  · rintro ⟨i, rfl⟩; exact ⟨i, Nat.mod_eq_of_lt (h i).isLt⟩

variable {cfg : Cfg} {ln : F64 → F64} {ords : Nat → IterOrder × IterOrder} {p n : Nat}

/-- **C42** for `HyperLogLogPF`: let `Z h` be the zero counter of a sketch with `m = 2^p` registers
after the insertion of `n` values whose hashes are given by `h`.  The average of `Z` over all `h` is
`m * (1 - 1/m)^n`. -/
theorem C42_pf_expected_zeros (hcfg : cfg.usizeBits = 64) (c : Serde.Codec (Fin n)) (h1 : 4 ≤ p)
    (h2 : p ≤ 16) :
    ∃ Z : (Fin n → Fin (2 ^ 64)) → ℕ,
      (∀ h, ∃ st os s, run (PF.api cfg ln c) ords 0 [] (insertAll p h) = .ok (st, os) ∧
        st[0]? = some s ∧ s.registers.zeros = Z h) ∧
      (∑ h, (Z h : ℝ)) / Fintype.card (Fin n → Fin (2 ^ 64)) = 2 ^ p * (1 - 1 / 2 ^ p) ^ n := by
  refine ⟨fun h => zeros 32 p (hashSet 32 h), fun h => ?_, average_zeros (by omega) (by omega) n⟩
  have hs : Supported cfg c (insertAll p h) := supported64 hcfg c (by simp [insertAll])
  obtain ⟨s, st, os, h3⟩ := reachPF_exists (ln := ln) (ords := ords) hs
    (contents_insertAll h1 h2 h)
  exact ⟨st, os, s, h3.1, h3.2.1, (C16_pf_zeros hs ⟨st, os, h3⟩).2⟩

/-- **C42** for `HyperLogLogPlus`: let `Z h` be the zero counter of a dense sketch with `m = 2^p`
registers into which the `n` hashes given by `h` were inserted.  This is also the zero counter of
the sketch created by `new` after the insertion of `n` values with these hashes, whenever it is
dense.  The average of `Z` over all `h` is `m * (1 - 1/m)^n`. -/
theorem C42_plus_expected_zeros (hcfg : cfg.usizeBits = 64) (c : Serde.Codec (Fin n)) (h1 : 4 ≤ p)
    (h2 : p ≤ 18) (ord : IterOrder) :
    ∃ Z : (Fin n → Fin (2 ^ 64)) → ℕ,
      (∀ h, ∃ s₀ s r, emptyDense cfg p (builderOf h) = .ok s₀ ∧
        insertHashes cfg ord ((List.finRange n).map (builderOf h)) s₀ = .ok s ∧
        s.registers = some r ∧ r.zeros = Z h) ∧
      (∀ h, ∃ st os s, run (Plus.api cfg ln c) ords 0 [] (insertAll p h) = .ok (st, os) ∧
        st[0]? = some s ∧ ∀ r, s.registers = some r → r.zeros = Z h) ∧
      (∑ h, (Z h : ℝ)) / Fintype.card (Fin n → Fin (2 ^ 64)) = 2 ^ p * (1 - 1 / 2 ^ p) ^ n := by
  refine ⟨fun h => zeros 64 p (hashSet 64 h), fun h => ?_, fun h => ?_,
    average_zeros (by omega) (by omega) n⟩
  · have hbits : 32 ≤ cfg.usizeBits := by omega
    obtain ⟨hb1, hb2⟩ := Plus.pow_bounds cfg hbits h2
    obtain ⟨r0, e1, e2⟩ := Registers.rep_withCount cfg (S := 6) (Or.inr rfl) (n := 2 ^ p) (by omega)
    have e2' : Registers.Rep 6 r0 (2 ^ p) (reg 64 p ∅) :=
      e2.congr (fun j _ => (reg_empty 64 p j).symm)
    obtain ⟨s', r', e3, e4, e5⟩ := insertHashes_dense cfg hbits ord h1 h2
      ((List.finRange n).map (builderOf h))
      (s := ⟨builderOf h, p, (2 ^ p, 2 ^ 24, capacity p), [], DifIntVec.new, some r0⟩) rfl rfl e2'
    rw [Finset.empty_union, ← hashSet_64] at e5
    exact ⟨_, s', r', by rw [emptyDense, e1]; rfl, e3, e4, e5.zeros_eq⟩
  · have hs : Supported cfg c (insertAll p h) := supported64 hcfg c (by simp [insertAll])
    obtain ⟨s, st, os, h3⟩ := reachPlus_exists (ln := ln) (ords := ords) hs
      (contents_insertAll h1 h2 h)
    exact ⟨st, os, s, h3.1, h3.2.1, fun r hr => (C16_plus_zeros hs ⟨st, os, h3⟩ hr).2⟩

/-- An instance: 16 registers, two values; on average `16 * (15/16)^2 = 14.0625` are empty. -/
example : ∃ Z : (Fin 2 → Fin (2 ^ 64)) → ℕ,
    (∀ h, ∃ st os s, run (PF.api Cfg.debug64 id (noCodec (Fin 2)))
        (fun _ => (IterOrder.id, IterOrder.id)) 0 [] (insertAll 4 h) = .ok (st, os) ∧
      st[0]? = some s ∧ s.registers.zeros = Z h) ∧
    (∑ h, (Z h : ℝ)) / Fintype.card (Fin 2 → Fin (2 ^ 64)) = 14.0625 := by
  obtain ⟨Z, h1, h2⟩ := C42_pf_expected_zeros (cfg := Cfg.debug64) (ln := id) (n := 2) (p := 4)
    (ords := fun _ => (IterOrder.id, IterOrder.id)) rfl (noCodec (Fin 2)) (by norm_num) (by norm_num)
  exact ⟨Z, h1, by rw [h2]; norm_num⟩

end HLL
