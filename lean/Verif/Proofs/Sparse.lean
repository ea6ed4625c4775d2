import Verif.Model.Plus
import Verif.Proofs.SpecLemmas
import Verif.Proofs.Encoding
import Verif.Proofs.Registers

/-! # The sparse representation: `merge_sparse`, `sparse_to_normal` and the register loops -/

namespace HLL
namespace Plus
open Spec

/-- The list is strictly increasing. -/
abbrev SortedLT (L : List U32) : Prop := L.Pairwise (fun a b => a.toNat < b.toNat)

theorem SortedLT.le {L : List U32} (h : SortedLT L) : L.Pairwise (· ≤ ·) :=
  h.imp fun h => BitVec.le_def.2 (Nat.le_of_lt h)

theorem SortedLT.map {L : List U32} (h : SortedLT L) : (L.map BitVec.toNat).Pairwise (· < ·) := by
  rw [List.pairwise_map]; exact h

theorem SortedLT.snoc {L : List U32} (h : SortedLT L) {v : U32} (hv : ∀ x ∈ L, x.toNat < v.toNat) :
    SortedLT (L ++ [v]) := by
  rw [SortedLT, List.pairwise_append]
  exact ⟨h, by simp, fun a ha b hb => by simp at hb; subst hb; exact hv a ha⟩

theorem mergeLoop_ok (cfg : Cfg) : ∀ (as bs : List U32) (out : DifIntVec) (O : List U32),
    DifIntVec.Enc out O → SortedLT as → SortedLT bs → SortedLT O →
    (∀ x ∈ O, ∀ y ∈ as, x.toNat < y.toNat) → (∀ x ∈ O, ∀ y ∈ bs, x.toNat < y.toNat) →
    O.length + as.length + bs.length < 2 ^ cfg.usizeBits →
    ∃ d L, mergeLoop cfg as bs out = .ok d ∧ DifIntVec.Enc d L ∧ SortedLT L ∧
      ∀ x, x ∈ L ↔ x ∈ O ∨ x ∈ as ∨ x ∈ bs := by
  intro as bs out
  induction as, bs, out using mergeLoop.induct with
  | case1 out =>
    intro O hE _ _ hO _ _ _
    exact ⟨out, O, by rw [mergeLoop]; rfl, hE, hO, by simp⟩
  | case2 b bs out ih =>
    intro O hE ha hb hO hOa hOb hlen
    simp only [List.length_cons, List.length_nil] at hlen
    have hOb' := fun x hx => hOb x hx b (by simp)
    have hb' := List.pairwise_cons.1 hb
    obtain ⟨d, hd, hEd⟩ := DifIntVec.enc_push cfg hE b
      (fun x hx => BitVec.le_def.2 (Nat.le_of_lt (hOb' x hx))) (by omega)
    obtain ⟨d', L, h1, h2, h3, h4⟩ := ih d (O ++ [b]) hEd ha hb'.2 (hO.snoc hOb') (by simp)
      (by
        intro x hx y hy
        rcases List.mem_append.1 hx with hx | hx
        · exact hOb x hx y (by simp [hy])
        · simp at hx; subst hx; exact hb'.1 y hy)
      (by simp only [List.length_append, List.length_cons, List.length_nil]; omega)
    refine ⟨d', L, by rw [mergeLoop, hd, ok_bind, h1], h2, h3, ?_⟩
    intro x; rw [h4]; simp [or_assoc]
  | case3 a as out ih =>
    intro O hE ha hb hO hOa hOb hlen
    simp only [List.length_cons, List.length_nil] at hlen
    have hOa' := fun x hx => hOa x hx a (by simp)
    have ha' := List.pairwise_cons.1 ha
    obtain ⟨d, hd, hEd⟩ := DifIntVec.enc_push cfg hE a
      (fun x hx => BitVec.le_def.2 (Nat.le_of_lt (hOa' x hx))) (by omega)
    obtain ⟨d', L, h1, h2, h3, h4⟩ := ih d (O ++ [a]) hEd ha'.2 hb (hO.snoc hOa')
      (by
        intro x hx y hy
        rcases List.mem_append.1 hx with hx | hx
        · exact hOa x hx y (by simp [hy])
        · simp at hx; subst hx; exact ha'.1 y hy)
      (by simp)
      (by simp only [List.length_append, List.length_cons, List.length_nil]; omega)
    refine ⟨d', L, by rw [mergeLoop, hd, ok_bind, h1], h2, h3, ?_⟩
    intro x; rw [h4]; simp [or_assoc]
  | case4 as a bs out ih =>
    intro O hE ha hb hO hOa hOb hlen
    simp only [List.length_cons] at hlen
    have hOa' := fun x hx => hOa x hx a (by simp)
    have ha' := List.pairwise_cons.1 ha
    have hb' := List.pairwise_cons.1 hb
    obtain ⟨d, hd, hEd⟩ := DifIntVec.enc_push cfg hE a
      (fun x hx => BitVec.le_def.2 (Nat.le_of_lt (hOa' x hx))) (by omega)
    obtain ⟨d', L, h1, h2, h3, h4⟩ := ih d (O ++ [a]) hEd ha'.2 hb'.2 (hO.snoc hOa')
      (by
        intro x hx y hy
        rcases List.mem_append.1 hx with hx | hx
        · exact hOa x hx y (by simp [hy])
        · simp at hx; subst hx; exact ha'.1 y hy)
      (by
        intro x hx y hy
        rcases List.mem_append.1 hx with hx | hx
        · exact hOb x hx y (by simp [hy])
        · simp at hx; subst hx; exact hb'.1 y hy)
      (by simp only [List.length_append, List.length_cons, List.length_nil]; omega)
    refine ⟨d', L, by rw [mergeLoop, if_pos rfl, hd, ok_bind, h1], h2, h3, ?_⟩
    intro x; rw [h4]; simp only [List.mem_append, List.mem_cons, List.not_mem_nil]; tauto
  | case5 a as b bs out hne hgt ih =>
    intro O hE ha hb hO hOa hOb hlen
    simp only [List.length_cons] at hlen
    have hOb' := fun x hx => hOb x hx b (by simp)
    have ha' := List.pairwise_cons.1 ha
    have hb' := List.pairwise_cons.1 hb
    have hlt : b.toNat < a.toNat := BitVec.lt_def.1 hgt
    obtain ⟨d, hd, hEd⟩ := DifIntVec.enc_push cfg hE b
      (fun x hx => BitVec.le_def.2 (Nat.le_of_lt (hOb' x hx))) (by omega)
    obtain ⟨d', L, h1, h2, h3, h4⟩ := ih d (O ++ [b]) hEd ha hb'.2 (hO.snoc hOb')
      (by
        intro x hx y hy
        rcases List.mem_append.1 hx with hx | hx
        · exact hOa x hx y hy
        · simp at hx; subst hx
          rcases List.mem_cons.1 hy with rfl | hy
          · exact hlt
          · exact lt_trans hlt (ha'.1 y hy))
      (by
        intro x hx y hy
        rcases List.mem_append.1 hx with hx | hx
        · exact hOb x hx y (by simp [hy])
        · simp at hx; subst hx; exact hb'.1 y hy)
      (by simp only [List.length_append, List.length_cons, List.length_nil]; omega)
    refine ⟨d', L, by rw [mergeLoop, if_neg hne, if_pos hgt, hd, ok_bind, h1], h2, h3, ?_⟩
    intro x; rw [h4]; simp only [List.mem_append, List.mem_cons, List.not_mem_nil]; tauto
  | case6 a as b bs out hne hgt ih =>
    intro O hE ha hb hO hOa hOb hlen
    simp only [List.length_cons] at hlen
    have hOa' := fun x hx => hOa x hx a (by simp)
    have ha' := List.pairwise_cons.1 ha
    have hb' := List.pairwise_cons.1 hb
    have hlt : a.toNat < b.toNat := by
      have h1 : ¬ b.toNat < a.toNat := fun h => hgt (BitVec.lt_def.2 h)
      have h2 : a.toNat ≠ b.toNat := fun h => hne (BitVec.eq_of_toNat_eq h)
      omega
    obtain ⟨d, hd, hEd⟩ := DifIntVec.enc_push cfg hE a
      (fun x hx => BitVec.le_def.2 (Nat.le_of_lt (hOa' x hx))) (by omega)
    obtain ⟨d', L, h1, h2, h3, h4⟩ := ih d (O ++ [a]) hEd ha'.2 hb (hO.snoc hOa')
      (by
        intro x hx y hy
        rcases List.mem_append.1 hx with hx | hx
        · exact hOa x hx y (by simp [hy])
        · simp at hx; subst hx; exact ha'.1 y hy)
      (by
        intro x hx y hy
        rcases List.mem_append.1 hx with hx | hx
        · exact hOb x hx y hy
        · simp at hx; subst hx
          rcases List.mem_cons.1 hy with rfl | hy
          · exact hlt
          · exact lt_trans hlt (hb'.1 y hy))
      (by simp only [List.length_append, List.length_cons, List.length_nil]; omega)
    refine ⟨d', L, by rw [mergeLoop, if_neg hne, if_neg hgt, hd, ok_bind, h1], h2, h3, ?_⟩
    intro x; rw [h4]; simp only [List.mem_append, List.mem_cons, List.not_mem_nil]; tauto

theorem sortCodes_perm (l : List U32) : (sortCodes l).Perm l := List.mergeSort_perm _ _

theorem sortCodes_sorted {l : List U32} (h : l.Nodup) : SortedLT (sortCodes l) := by
  have h1 : (sortCodes l).Pairwise (fun a b => decide (a ≤ b) = true) := by
    apply List.pairwise_mergeSort
    · intro a b c hab hbc
      simp only [decide_eq_true_eq, BitVec.le_def] at *
      omega
    · intro a b
      simp only [Bool.or_eq_true, decide_eq_true_eq, BitVec.le_def]
      omega
  have h2 : (sortCodes l).Nodup := (sortCodes_perm l).nodup_iff.2 h
  refine (h1.and h2).imp ?_
  rintro a b ⟨hab, hne⟩
  simp only [decide_eq_true_eq, BitVec.le_def] at hab
  have : a.toNat ≠ b.toNat := fun h => hne (BitVec.eq_of_toNat_eq h)
  omega

/-- The hash set operations keep a list free of duplicates. -/
theorem nodup_hashSetInsert {s : List U32} (h : s.Nodup) (x : U32) : (hashSetInsert s x).Nodup := by
  unfold hashSetInsert
  split
  · exact h
  · exact List.nodup_cons.2 ⟨by assumption, h⟩

theorem mem_hashSetInsert {s : List U32} {x y : U32} : y ∈ hashSetInsert s x ↔ y = x ∨ y ∈ s := by
  unfold hashSetInsert
  split
  · constructor
    · exact Or.inr
    · rintro (rfl | h) <;> assumption
  · exact List.mem_cons

theorem length_hashSetInsert (s : List U32) (x : U32) : (hashSetInsert s x).length ≤ s.length + 1 := by
  unfold hashSetInsert; split <;> simp

theorem foldl_hashSetInsert (l : List U32) : ∀ s : List U32, s.Nodup →
    (l.foldl hashSetInsert s).Nodup ∧ (∀ y, y ∈ l.foldl hashSetInsert s ↔ y ∈ s ∨ y ∈ l) ∧
    (l.foldl hashSetInsert s).length ≤ s.length + l.length := by
  induction l with
  | nil => intro s hs; simp [hs]
  | cons x xs ih =>
    intro s hs
    obtain ⟨h1, h2, h3⟩ := ih _ (nodup_hashSetInsert hs x)
    refine ⟨h1, ?_, ?_⟩
    · intro y
      rw [List.foldl_cons, h2, mem_hashSetInsert, List.mem_cons]; tauto
    · rw [List.foldl_cons]
      have := length_hashSetInsert s x
      simp only [List.length_cons]; omega

/-- Registers after folding in a list of codes. -/
theorem setCodes_ok (cfg : Cfg) (hcfg : 32 ≤ cfg.usizeBits) {p : Nat} (hp1 : 4 ≤ p) (hp2 : p ≤ 18) :
    ∀ (L : List U32) (r : Registers) (S T : Finset Nat), Registers.Rep 6 r (2 ^ p) (reg 64 p S) →
    (∀ h ∈ S, h < 2 ^ 64) → (∀ h ∈ T, h < 2 ^ 64) →
    (∀ c ∈ L, c.toNat ∈ codes p T) →
    ∃ r' U, setCodes cfg p L r = .ok r' ∧ Registers.Rep 6 r' (2 ^ p) (reg 64 p U) ∧
      (∀ h ∈ U, h < 2 ^ 64) ∧
      (∀ n, n ∈ codes p U ↔ n ∈ codes p S ∨ n ∈ L.map BitVec.toNat) := by
  intro L
  induction L with
  | nil =>
    intro r S T hr hS _ _
    exact ⟨r, S, rfl, hr, hS, by simp⟩
  | cons c cs ih =>
    intro r S T hr hS hT hL
    obtain ⟨h, hh, hc⟩ := Finset.mem_image.1 (hL c (by simp))
    obtain ⟨z, hz, hzr⟩ := decodeHash_ok cfg hp1 hp2 (hT h hh) hc.symm
    have hb : bucket 64 p h < 2 ^ p := bucket_lt (by omega) (hT h hh)
    have hrk := rank_le 64 p h
    obtain ⟨r1, h1, h2⟩ := hr.setGreater (Or.inr rfl) cfg hb (v := z)
      (by rw [hzr]; omega)
      (by
        have : 2 ^ p ≤ 2 ^ 18 := Nat.pow_le_pow_right (by norm_num) hp2
        have : 2 ^ 32 ≤ 2 ^ cfg.usizeBits := Nat.pow_le_pow_right (by norm_num) hcfg
        omega)
    rw [hzr, ← reg_insert] at h2
    obtain ⟨r', U, h3, h4, h5, h6⟩ := ih r1 (Insert.insert h S) T h2
      (by intro x hx; rcases Finset.mem_insert.1 hx with rfl | hx; exacts [hT _ hh, hS x hx]) hT
      (fun x hx => hL x (by simp [hx]))
    refine ⟨r', U, ?_, h4, h5, ?_⟩
    · rw [setCodes, hz, ok_bind]
      simp only
      rw [show SIZE = 6 from rfl, h1, ok_bind, h3]
    · intro n
      rw [h6, codes, Finset.image_insert, Finset.mem_insert, List.map_cons, List.mem_cons, ← hc]
      unfold codes
      tauto

end Plus
end HLL
