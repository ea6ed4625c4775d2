import Verif.Spec
import Verif.Proofs.Hash
import Mathlib.Data.List.Sort
import Mathlib.Data.Finset.Sort

/-! # Facts about the specification -/

namespace HLL
open Spec

/-! ## Encoded sizes -/

theorem varLen_pos (n : Nat) : 1 ≤ varLen n := by
  rw [varLen]; split <;> omega

theorem lt_pow_varLen (n : Nat) : n < 128 ^ varLen n := by
  induction n using varLen.induct with
  | case1 n h => rw [varLen, if_pos h]; simpa using h
  | case2 n h ih =>
    rw [varLen, if_neg h, pow_add, pow_one]
    omega

theorem varLen_le {n k : Nat} (hk : 1 ≤ k) (h : n < 128 ^ k) : varLen n ≤ k := by
  induction n using varLen.induct generalizing k with
  | case1 n h' => rw [varLen, if_pos h']; exact hk
  | case2 n h' ih =>
    rw [varLen, if_neg h']
    obtain ⟨k, rfl⟩ : ∃ j, k = j + 1 := ⟨k - 1, by omega⟩
    rcases Nat.eq_zero_or_pos k with rfl | hk'
    · simp at h; omega
    · have := ih hk' (by rw [pow_succ] at h; omega)
      omega

theorem varLen_add_le (a b : Nat) : varLen (a + b) ≤ varLen a + varLen b := by
  have ha := varLen_pos a
  have hb := varLen_pos b
  apply varLen_le (by omega)
  have h1 := lt_pow_varLen a
  have h2 := lt_pow_varLen b
  rw [pow_add]
  have h3 : 128 ^ 1 ≤ 128 ^ varLen a := Nat.pow_le_pow_right (by norm_num) ha
  have h4 : 128 ^ 1 ≤ 128 ^ varLen b := Nat.pow_le_pow_right (by norm_num) hb
  generalize 128 ^ varLen a = x at *
  generalize 128 ^ varLen b = y at *
  have : x + y ≤ x * y := by nlinarith
  omega

theorem gapsSize_insert {prev x : Nat} (hx : prev ≤ x) : ∀ {L : List Nat}, (∀ c ∈ L, x ≤ c) →
    gapsSize prev L ≤ varLen (x - prev) + gapsSize x L
  | [], _ => by simp [gapsSize]
  | c :: cs, h => by
    have hc := h c (by simp)
    rw [gapsSize, gapsSize]
    have := varLen_add_le (x - prev) (c - x)
    rw [show x - prev + (c - x) = c - prev by omega] at this
    omega

theorem gapsSize_sublist {L L' : List Nat} (h : L.Sublist L') : ∀ {prev : Nat},
    (prev :: L').Pairwise (· ≤ ·) → gapsSize prev L ≤ gapsSize prev L' := by
  induction h with
  | slnil => intro prev _; exact le_rfl
  | @cons L L' x hsub ih =>
    intro prev hs
    rw [List.pairwise_cons] at hs
    have h1 := ih hs.2
    have h2 := List.pairwise_cons.1 hs.2
    have h3 := gapsSize_insert (L := L) (hs.1 x (by simp)) (fun c hc => h2.1 c (hsub.subset hc))
    rw [gapsSize]; omega
  | @cons_cons L L' x hsub ih =>
    intro prev hs
    rw [List.pairwise_cons] at hs
    have h1 := ih hs.2
    rw [gapsSize, gapsSize]; omega

theorem length_le_gapsSize (L : List Nat) : ∀ prev, L.length ≤ gapsSize prev L := by
  induction L with
  | nil => intro prev; simp [gapsSize]
  | cons c cs ih =>
    intro prev
    have h1 := ih c
    have h2 := varLen_pos (c - prev)
    rw [gapsSize, List.length_cons]; omega

theorem sort_sublist {C D : Finset Nat} (h : C ⊆ D) :
    (C.sort (· ≤ ·)).Sublist (D.sort (· ≤ ·)) := by
  apply List.sublist_of_subperm_of_pairwise (r := (· ≤ ·))
  · apply List.subperm_of_subset (Finset.sort_nodup _ _)
    intro x hx
    rw [Finset.mem_sort] at hx ⊢
    exact h hx
  · exact Finset.pairwise_sort _ _
  · exact Finset.pairwise_sort _ _

/-- The encoded size never decreases when codes are added. -/
theorem encSize_mono {C D : Finset Nat} (h : C ⊆ D) : encSize C ≤ encSize D := by
  apply gapsSize_sublist (sort_sublist h)
  rw [List.pairwise_cons]
  exact ⟨fun _ _ => Nat.zero_le _, Finset.pairwise_sort _ _⟩

theorem card_le_encSize (C : Finset Nat) : C.card ≤ encSize C := by
  have := length_le_gapsSize (C.sort (· ≤ ·)) 0
  rwa [Finset.length_sort] at this

theorem codes_union (p : Nat) (S T : Finset Nat) : codes p (S ∪ T) = codes p S ∪ codes p T :=
  Finset.image_union _ _

theorem fitsSparse_mono {p : Nat} {S T : Finset Nat} (h : S ⊆ T) (hT : fitsSparse p T) :
    fitsSparse p S :=
  le_trans (encSize_mono (Finset.image_subset_image h)) hT

theorem capacity_le {p : Nat} (hp : p ≤ 18) : capacity p ≤ 209715 := by
  unfold capacity
  have : 2 ^ p ≤ 2 ^ 18 := Nat.pow_le_pow_right (by norm_num) hp
  omega

/-- A strictly increasing list is the sorted list of its elements. -/
theorem eq_sort_of_pairwise {L : List Nat} (h : L.Pairwise (· < ·)) {C : Finset Nat}
    (hC : ∀ c, c ∈ L ↔ c ∈ C) : L = C.sort (· ≤ ·) := by
  have hnd : L.Nodup := h.imp (fun h => Nat.ne_of_lt h)
  have : C = L.toFinset := by ext c; simp [hC]
  subst this
  symm
  rw [List.toFinset_sort (· ≤ ·) hnd]
  exact h.imp (fun h => Nat.le_of_lt h)

/-! ## Registers of a set of hashes -/

theorem reg_empty (w p j : Nat) : reg w p ∅ j = 0 := by simp [reg]

theorem reg_union (w p : Nat) (S T : Finset Nat) (j : Nat) :
    reg w p (S ∪ T) j = max (reg w p S j) (reg w p T j) := by
  unfold reg
  rw [Finset.filter_union, Finset.sup_union]

theorem reg_insert (w p : Nat) (S : Finset Nat) (h : Nat) :
    reg w p (insert h S) =
      Function.update (reg w p S) (bucket w p h) (max (reg w p S (bucket w p h)) (rank w p h)) := by
  funext j
  by_cases hj : bucket w p h = j
  · subst hj
    unfold reg
    rw [Function.update_self, Finset.filter_insert, if_pos rfl, Finset.sup_insert, sup_comm]
  · rw [Function.update_of_ne (fun h => hj h.symm)]
    unfold reg
    rw [Finset.filter_insert, if_neg hj]

theorem rank_pos (w p h : Nat) : 1 ≤ rank w p h := firstOne_pos _ _
theorem rank_le (w p h : Nat) : rank w p h ≤ w - p + 1 := firstOne_le _ _

theorem reg_le (w p : Nat) (S : Finset Nat) (j : Nat) : reg w p S j ≤ w - p + 1 := by
  unfold reg
  exact Finset.sup_le fun h _ => rank_le w p h

theorem bucket_lt {w p h : Nat} (hp : p ≤ w) (hh : h < 2 ^ w) : bucket w p h < 2 ^ p := by
  unfold bucket
  rw [Nat.div_lt_iff_lt_mul (Nat.two_pow_pos _), ← pow_add]
  rwa [show p + (w - p) = w by omega]

/-- The sparse code of a hash determines its register and rank. -/
theorem bucket_rank_of_code {p : Nat} (hp1 : 4 ≤ p) (hp2 : p ≤ 18) {h h' : Nat} (hh : h < 2 ^ 64)
    (hh' : h' < 2 ^ 64) (hc : code p h = code p h') :
    bucket 64 p h = bucket 64 p h' ∧ rank 64 p h = rank 64 p h' := by
  have hlt := code_lt p h hh
  have hc1 : (BitVec.ofNat 32 (code p h)).toNat = code p h := by
    rw [BitVec.toNat_ofNat]; exact Nat.mod_eq_of_lt hlt
  obtain ⟨z, hz, hzr⟩ := Plus.decodeHash_ok Cfg.debug64 hp1 hp2 hh hc1
  obtain ⟨z', hz', hzr'⟩ := Plus.decodeHash_ok Cfg.debug64 hp1 hp2 hh' (hc1.trans hc)
  rw [hz] at hz'
  injection hz' with hz'
  injection hz' with h1 h2
  exact ⟨h2, by rw [← hzr, ← hzr', h1]⟩

theorem reg_le_of_codes {p : Nat} (hp1 : 4 ≤ p) (hp2 : p ≤ 18) {S T : Finset Nat}
    (hS : ∀ h ∈ S, h < 2 ^ 64) (hT : ∀ h ∈ T, h < 2 ^ 64) (hc : codes p S ⊆ codes p T) (j : Nat) :
    reg 64 p S j ≤ reg 64 p T j := by
  unfold reg
  apply Finset.sup_le
  intro h hh
  rw [Finset.mem_filter] at hh
  obtain ⟨h', hh', hcode⟩ := Finset.mem_image.1 (hc (Finset.mem_image_of_mem _ hh.1))
  obtain ⟨hb, hr⟩ := bucket_rank_of_code hp1 hp2 (hT h' hh') (hS h hh.1) hcode
  rw [← hr]
  exact Finset.le_sup (f := rank 64 p) (Finset.mem_filter.2 ⟨hh', by rw [hb, hh.2]⟩)

/-- Registers depend on a set of hashes only through its sparse codes. -/
theorem reg_eq_of_codes {p : Nat} (hp1 : 4 ≤ p) (hp2 : p ≤ 18) {S T : Finset Nat}
    (hS : ∀ h ∈ S, h < 2 ^ 64) (hT : ∀ h ∈ T, h < 2 ^ 64) (hc : codes p S = codes p T) :
    reg 64 p S = reg 64 p T := by
  funext j
  exact le_antisymm (reg_le_of_codes hp1 hp2 hS hT hc.subset j)
    (reg_le_of_codes hp1 hp2 hT hS hc.symm.subset j)

end HLL
