import Verif.Proofs.Spacing
import Verif.Props.Programs
import Verif.Props.Lifetime

/-!
# C80: how long a `HyperLogLogPlus` stays sparse with random hashes

C64 bounds the number of values after which a sketch becomes dense for every hash function: between a third
of `4 · 2^p / 5` and all of it.  With random hashes the interval is narrower.
-/

namespace HLL
open Spec

variable {cfg : Cfg} {ln : F64 → F64} {ords : Nat → IterOrder × IterOrder} {p N i : Nat}
  {ops : List (Op (Fin N))} {V : Finset (Fin N)}

/-- **C80**: run any program, with random hashes.  If sketch `i` has precision `p` and received exactly the
values `V`, and `n = |V|` is more than `0.62 · (4 · 2^p / 5)`, then it is dense, except with probability
`2 · 10^-7`. -/
theorem C80_dense (c : Serde.Codec (Fin N)) (hs : ∀ h, Supported cfg c (ops.map (withHashes h)))
    (hV : (received 18 ops)[i]? = some (p, V)) (h1 : 4 ≤ p) (hn : 31 * (4 * 2 ^ p / 5) < 50 * V.card) :
    fraction (fun h : Fin N → Fin (2 ^ 64) => ¬ ∃ s a,
      ReachPlus cfg ln c ords (ops.map (withHashes h)) i s a ∧ s.isSparse = false) ≤ 2 / 10 ^ 7 := by
  have h2 := received_le hV
  obtain ⟨W, hWV, hW⟩ := Finset.exists_subset_card_eq (s := V) (n := 31 * capacity p / 50 + 1) (by
    unfold capacity; omega)
  have key := fraction_still_sparse h1 h2
  rw [← hW, ← fraction_restrict W 64 fun S => 2 * (codes p S).card ≤
    capacity p + 2 * (capacity p / 100) + nClose (codes p S)] at key
  refine le_trans (fraction_mono fun h hh => ?_) key
  have hc : (contents 64 18 (ops.map (withHashes h)))[i]? = some (meaning 64 h (p, V)) := by
    rw [contents_meaning, List.getElem?_map, hV]; rfl
  obtain ⟨s, hr⟩ := reachPlus_exists (ln := ln) (ords := ords) (hs h) hc
  obtain ⟨⟨hb, rep⟩, _, _⟩ := hr.means (hs h)
  rcases rep with ⟨L, h4, h5, h6⟩ | ⟨r, h4⟩
  · simp only [meaning] at h4 h5 h6
    classical
    obtain ⟨C, hC⟩ : ∃ C, C = codes p (W.image fun v => (h v : Nat) % 2 ^ 64) := ⟨_, rfl⟩
    have hCV : C ⊆ codes p (V.image fun v => (h v : Nat) % 2 ^ 64) := by
      rw [hC]
      exact Finset.image_subset_image (Finset.image_subset_image hWV)
    have hlen := Plus.len_of_codes h4.enc h4.sorted (C := (L.map BitVec.toNat).toFinset)
      (fun n => List.mem_toFinset.symm)
    have h7 := two_card_le (C := C) (L := C ∩ (L.map BitVec.toNat).toFinset)
      (T := (s.tmpset.map BitVec.toNat).toFinset) Finset.inter_subset_left (by
        intro x hx
        rw [Finset.mem_union, Finset.mem_inter, List.mem_toFinset, List.mem_toFinset]
        exact ((h4.mem x).1 (hCV hx)).imp (fun hl => ⟨hx, hl⟩) id)
    have h8 := encSize_mono (C := C ∩ (L.map BitVec.toNat).toFinset) Finset.inter_subset_right
    have h9 := List.toFinset_card_le (s.tmpset.map BitVec.toNat)
    rw [List.length_map] at h9
    rw [← hC]
    omega
  · exact absurd ⟨s, _, hr, by simp only [Plus.isSparse, h4.regs, Option.isNone_some]⟩ hh

/-- `fraction_already_dense` with the capacity written out. -/
theorem fraction_dense_le (h2 : p ≤ 18) (hn : 204 * N + 420000 ≤ 100 * (4 * 2 ^ p / 5)) :
    fraction (fun h : Fin N → Fin (2 ^ 64) => ¬ fitsSparse p (hashSet 64 h)) ≤ 1 / 10 ^ 7 := by
  have h3 : 204 * N + 420000 ≤ 100 * capacity p := by unfold capacity; exact hn
  clear hn
  exact fraction_already_dense h2 h3

/-- A sketch whose hashes fit in the sparse list is sparse. -/
theorem sparse_of_fits (c : Serde.Codec (Fin N)) (hs : ∀ h, Supported cfg c (ops.map (withHashes h)))
    (hV : (received 18 ops)[i]? = some (p, V)) (h : Fin N → Fin (2 ^ 64))
    (hf : fitsSparse p (V.image fun v => (h v : Nat) % 2 ^ 64)) :
    ∃ s a, ReachPlus cfg ln c ords (ops.map (withHashes h)) i s a ∧ s.isSparse = true := by
  have hc : (contents 64 18 (ops.map (withHashes h)))[i]? = some (meaning 64 h (p, V)) := by
    rw [contents_meaning, List.getElem?_map, hV]; rfl
  obtain ⟨s, hr⟩ := reachPlus_exists (ln := ln) (ords := ords) (hs h) hc
  obtain ⟨⟨hb, rep⟩, _, _⟩ := hr.means (hs h)
  rcases rep with ⟨L, h4, h5, h6⟩ | ⟨r, h4⟩
  · exact ⟨s, _, hr, by simp only [Plus.isSparse, h4.regs, Option.isNone_none]⟩
  · exact absurd hf h4.big

/-- **C80**: if `2.04 n + 4200` does not exceed `4 · 2^p / 5`, then the sketch is sparse, except with
probability `10^-7`. -/
theorem C80_sparse (c : Serde.Codec (Fin N)) (hs : ∀ h, Supported cfg c (ops.map (withHashes h)))
    (hV : (received 18 ops)[i]? = some (p, V)) (hn : 204 * V.card + 420000 ≤ 100 * (4 * 2 ^ p / 5)) :
    fraction (fun h : Fin N → Fin (2 ^ 64) => ¬ ∃ s a,
      ReachPlus cfg ln c ords (ops.map (withHashes h)) i s a ∧ s.isSparse = true) ≤ 1 / 10 ^ 7 := by
  have key := fraction_dense_le (received_le hV) hn
  rw [← fraction_restrict V 64 fun S => ¬ fitsSparse p S] at key
  exact le_trans (fraction_mono fun h hh hf => hh (sparse_of_fits c hs hV h hf)) key

/-- Instances: two sketches with `2^14` registers have 2800 values each, half of them shared; after merging
them, with 4200 values, the result is sparse except with probability `10^-7`.  With 5420 values each it is
dense except with probability `2·10^-7`. -/
example : fraction (fun h : Fin (3 * 1400) → Fin (2 ^ 64) => ¬ ∃ s a,
    ReachPlus Cfg.debug64 ln (noCodec _) ords ((twoSites 1400).map (withHashes h)) 0 s a ∧
      s.isSparse = true) ≤ 1 / 10 ^ 7 ∧
    fraction (fun h : Fin (3 * 2710) → Fin (2 ^ 64) => ¬ ∃ s a,
    ReachPlus Cfg.debug64 ln (noCodec _) ords ((twoSites 2710).map (withHashes h)) 0 s a ∧
      s.isSparse = false) ≤ 2 / 10 ^ 7 := by
  constructor
  · refine C80_sparse (noCodec _)
      (fun h => supported64 (cfg := Cfg.debug64) rfl (noCodec _) (twoSites_reload 1400 h))
      (received_twoSites 1400 (by norm_num)) ?_
    rw [Finset.card_univ, Fintype.card_fin]
    norm_num
  · refine C80_dense (noCodec _)
      (fun h => supported64 (cfg := Cfg.debug64) rfl (noCodec _) (twoSites_reload 2710 h))
      (received_twoSites 2710 (by norm_num)) (by norm_num) ?_
    rw [Finset.card_univ, Fintype.card_fin]
    norm_num

end HLL
