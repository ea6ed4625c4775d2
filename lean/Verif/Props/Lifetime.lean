import Verif.Props.State
import Verif.Proofs.Collisions

/-!
# C64: how long a `HyperLogLogPlus` stays sparse

A new sketch stores 32-bit codes; it converts to registers when the encoded codes take more than
`4 · 2^p / 5` bytes.  When that happens depends on the hashes.  These theorems bound the moment from
both sides for every hash function.
-/

namespace HLL
open Spec

namespace Spec

theorem gapsSize_le {B D : Nat} (hv : ∀ g < 2 ^ 32, varLen g ≤ B + g / D) :
    ∀ (L : List Nat) (prev : Nat), (prev :: L).Pairwise (· ≤ ·) → (∀ x ∈ L, x < 2 ^ 32) →
      gapsSize prev L ≤ B * L.length + (2 ^ 32 - 1 - prev) / D := by
  intro L
  induction L with
  | nil => intro prev _ _; simp [gapsSize]
  | cons c cs ih =>
    intro prev hp hlt
    have hc : c < 2 ^ 32 := hlt c (by simp)
    have hle : prev ≤ c := (List.pairwise_cons.1 hp).1 c (by simp)
    have h1 := ih c (List.pairwise_cons.1 hp).2 fun x hx => hlt x (by simp [hx])
    have h2 := hv (c - prev) (by omega)
    have h3 : (c - prev) / D + (2 ^ 32 - 1 - c) / D ≤ (2 ^ 32 - 1 - prev) / D := by
      rcases Nat.eq_zero_or_pos D with rfl | hD
      · simp
      · rw [Nat.le_div_iff_mul_le hD, add_mul]
        have h4 := Nat.div_mul_le_self (c - prev) D
        have h5 := Nat.div_mul_le_self (2 ^ 32 - 1 - c) D
        omega
    rw [gapsSize, List.length_cons, Nat.mul_succ]
    omega

theorem encSize_le {B D : Nat} (hv : ∀ g < 2 ^ 32, varLen g ≤ B + g / D) {C : Finset Nat}
    (hC : ∀ x ∈ C, x < 2 ^ 32) : encSize C ≤ B * C.card + (2 ^ 32 - 1) / D := by
  have h := gapsSize_le hv (C.sort (· ≤ ·)) 0
    (List.pairwise_cons.2 ⟨fun _ _ => Nat.zero_le _, Finset.pairwise_sort C (· ≤ ·)⟩)
    (fun x hx => hC x ((Finset.mem_sort _).1 hx))
  rw [Finset.length_sort] at h
  exact h

theorem varLen_five {g : Nat} (h : g < 2 ^ 32) : varLen g ≤ 5 + g / 2 ^ 32 :=
  (varLen_le (by norm_num) (by norm_num at h ⊢; omega)).trans (Nat.le_add_right _ _)

theorem varLen_four {g : Nat} (h : g < 2 ^ 32) : varLen g ≤ 4 + g / 2 ^ 28 := by
  by_cases h1 : g < 2 ^ 28
  · exact (varLen_le (by norm_num) (by norm_num at h1 ⊢; omega)).trans (Nat.le_add_right _ _)
  · have := varLen_le (n := g) (k := 5) (by norm_num) (by norm_num at h ⊢; omega)
    omega

theorem varLen_three {g : Nat} (h : g < 2 ^ 32) : varLen g ≤ 3 + g / 2 ^ 21 := by
  by_cases h1 : g < 2 ^ 21
  · exact (varLen_le (by norm_num) (by norm_num at h1 ⊢; omega)).trans (Nat.le_add_right _ _)
  · have := varLen_four h
    omega

/-- `n` hashes take at most `5 n`, `4 n + 15` and `3 n + 2047` bytes. -/
theorem encSize_codes_le {p : Nat} {S : Finset Nat} (hS : ∀ h ∈ S, h < 2 ^ 64) :
    encSize (codes p S) ≤ min (5 * S.card) (min (4 * S.card + 15) (3 * S.card + 2047)) := by
  have hC : ∀ x ∈ codes p S, x < 2 ^ 32 := by
    intro x hx
    obtain ⟨h, hh, rfl⟩ := Finset.mem_image.1 hx
    exact code_lt _ _ (hS h hh)
  have h0 : (codes p S).card ≤ S.card := Finset.card_image_le
  have h1 := encSize_le (fun g hg => varLen_five hg) hC
  have h2 := encSize_le (fun g hg => varLen_four hg) hC
  have h3 := encSize_le (fun g hg => varLen_three hg) hC
  norm_num at h1 h2 h3
  omega

theorem card_prefixes_le (p : Nat) (S : Finset Nat) :
    (S.image (· / 2 ^ 39)).card ≤ (codes p S).card := by
  classical
  have : ∀ j ∈ S.image (· / 2 ^ 39), ∃ h ∈ S, h / 2 ^ 39 = j := fun j hj => Finset.mem_image.1 hj
  choose! f hf1 hf2 using this
  refine Finset.card_le_card_of_injOn (fun j => code p (f j))
    (fun j hj => Finset.mem_image_of_mem _ (hf1 j hj)) ?_
  intro i hi j hj hij
  rw [← hf2 i hi, ← hf2 j hj]
  exact prefix_of_code hij

end Spec

variable {I : Type} {cfg : Cfg} {ln : F64 → F64} {c : Serde.Codec I}
  {ords : Nat → IterOrder × IterOrder} {ops : List (Op I)} {i : Nat}

/-- C64: a sketch of precision `p` that has received `n` distinct hashes is sparse, whatever the
hashes are, whenever `5 n`, `4 n + 15` or `3 n + 2047` does not exceed `4 · 2^p / 5`. -/
theorem C64_few_values_stay_sparse {s : Plus I} {a : Abs I} (h : Supported cfg c ops)
    (hr : ReachPlus cfg ln c ords ops i s a)
    (hn : 5 * a.S.card ≤ 4 * 2 ^ a.p / 5 ∨ 4 * a.S.card + 15 ≤ 4 * 2 ^ a.p / 5 ∨
      3 * a.S.card + 2047 ≤ 4 * 2 ^ a.p / 5) :
    s.isSparse = true := by
  obtain ⟨⟨hb, rep⟩, _, _⟩ := hr.means h
  rcases rep with ⟨L, h4, h5, h6⟩ | ⟨r, h4⟩
  · simp only [Plus.isSparse, h4.regs, Option.isNone_none]
  · exfalso
    apply h4.big
    have := encSize_codes_le (p := a.p) hb.hashes
    unfold fitsSparse capacity
    omega

/-- C64: a sketch whose hashes have more than `101/100` of `4 · 2^p / 5` different 25-bit prefixes is
dense in every state. -/
theorem C64_many_values_are_dense {s : Plus I} {a : Abs I} (h : Supported cfg c ops)
    (hr : ReachPlus cfg ln c ords ops i s a)
    (hn : 4 * 2 ^ a.p / 5 + 4 * 2 ^ a.p / 5 / 100 < (a.S.image (· / 2 ^ 39)).card) :
    s.isSparse = false := by
  obtain ⟨⟨hb, rep⟩, _, _⟩ := hr.means h
  have h0 := card_prefixes_le a.p a.S
  rcases rep with ⟨L, h4, h5, h6⟩ | ⟨r, h4⟩
  · exfalso
    have h1 : codes a.p a.S ⊆ (L.map BitVec.toNat).toFinset ∪ (s.tmpset.map BitVec.toNat).toFinset := by
      intro n hn
      rw [Finset.mem_union, List.mem_toFinset, List.mem_toFinset]
      exact (h4.mem n).1 hn
    have h2 := (Finset.card_le_card h1).trans (Finset.card_union_le _ _)
    have h3 := List.toFinset_card_le (L.map BitVec.toNat)
    have h7 := List.toFinset_card_le (s.tmpset.map BitVec.toNat)
    rw [List.length_map] at h3 h7
    have h8 := Plus.length_le_len h4.enc
    unfold capacity at h5 h6
    omega
  · simp only [Plus.isSparse, h4.regs, Option.isNone_some]

/-- C64: right after `count` the bound is `4 · 2^p / 5` itself. -/
theorem C64_many_values_dense_after_count {s : Plus I} {a : Abs I} (h : Supported cfg c ops)
    (hr : ReachPlus cfg ln c ords ops i s a) (ord : IterOrder)
    (hn : 4 * 2 ^ a.p / 5 < (a.S.image (· / 2 ^ 39)).card) :
    ∃ s' x, Plus.count cfg ln ord s = .ok (s', x) ∧ s'.isSparse = false := by
  obtain ⟨s', x, h1, h2⟩ := C20_sparse_iff_fits h hr ord
  refine ⟨s', x, h1, ?_⟩
  rw [Bool.eq_false_iff]
  intro h3
  have h4 := h2.1 h3
  have h5 := card_prefixes_le a.p a.S
  have h6 := card_le_encSize (codes a.p a.S)
  omega

/-- Precision 14, `2^14` registers: sparse for every set of at most 3686 values. -/
example {s : Plus I} {a : Abs I} (h : Supported cfg c ops)
    (hr : ReachPlus cfg ln c ords ops i s a) (hp : a.p = 14) (hn : a.S.card ≤ 3686) :
    s.isSparse = true := by
  refine C64_few_values_stay_sparse h hr ?_
  rw [hp]
  omega

/-- Precision 4: the capacity is 12 bytes.  Two values of any hash function leave the sketch sparse,
13 values with different prefixes make it dense. -/
example (hash : Nat → U64) : ∃ s a,
    ReachPlus Cfg.debug64 ln (noCodec Nat) ords [.new 4 hash, .insert .insert 0 7, .insert .insert 0 8]
      0 s a ∧ 5 * a.S.card ≤ 4 * 2 ^ a.p / 5 := by
  obtain ⟨s, hs⟩ := reachPlus_exists (ln := ln) (ords := ords) (i := 0)
    (supported64 (cfg := Cfg.debug64) rfl (noCodec Nat)
      (ops := [.new 4 hash, .insert .insert 0 7, .insert .insert 0 8]) (by simp)) rfl
  refine ⟨s, _, hs, ?_⟩
  have : ∀ x y : Nat, (insert x (insert y (∅ : Finset Nat))).card ≤ 2 := fun x y =>
    (Finset.card_insert_le _ _).trans (Nat.succ_le_succ (by simp))
  exact (Nat.mul_le_mul_left 5 (this _ _)).trans (by norm_num)

/-- The program with 13 values. -/
def demo13 : List (Op Nat) :=
  .new 4 (fun n => (BitVec.ofNat 64 n) <<< 39) ::
    (List.range 13).map fun n => .insert .insert 0 (n * 7)

example : ∃ s a, ReachPlus Cfg.debug64 ln (noCodec Nat) ords demo13 0 s a ∧
    4 * 2 ^ a.p / 5 + 4 * 2 ^ a.p / 5 / 100 < (a.S.image (· / 2 ^ 39)).card := by
  have e : ((contents 64 18 demo13)[0]?).isSome = true := by decide +kernel
  obtain ⟨s, hs⟩ := reachPlus_exists (ln := ln) (ords := ords) (i := 0)
    (supported64 (cfg := Cfg.debug64) rfl (noCodec Nat) (ops := demo13)
      (by simp [demo13, List.range, List.range.loop])) (Option.some_get e).symm
  exact ⟨s, _, hs, by clear hs; revert e; decide +kernel⟩

end HLL
