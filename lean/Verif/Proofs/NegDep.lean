import Verif.Proofs.Ranks
import Mathlib.Tactic.LinearCombination
import Mathlib.Tactic.GCongr

/-!
# Negative dependence of the registers

Two quantities that increase with the hashes of disjoint sets of hashes are negatively correlated.
Hence the average of a product of increasing (or of decreasing) functions of the registers is at most
the product of the averages.
-/

namespace HLL
open Spec

/-- `f` depends only on the hashes in `A`, and each of them can only make it larger. -/
def IncOn {n : Nat} (A : Set (Fin (2 ^ 64))) (f : (Fin n → Fin (2 ^ 64)) → ℝ) : Prop :=
  ∀ h i x y, y ∉ A → f (Function.update h i y) ≤ f (Function.update h i x)

/-- The average over one hash. -/
noncomputable def mean1 (F : Fin (2 ^ 64) → ℝ) : ℝ := (∑ x, F x) / 2 ^ 64

theorem mean1_mul_le {A B : Set (Fin (2 ^ 64))} (hAB : Disjoint A B) {F G : Fin (2 ^ 64) → ℝ}
    (hF : ∀ x y, y ∉ A → F y ≤ F x) (hG : ∀ x y, y ∉ B → G y ≤ G x) :
    mean1 (fun x => F x * G x) ≤ mean1 F * mean1 G := by
  obtain ⟨a, -, ha⟩ := Finset.exists_min_image Finset.univ F ⟨0, Finset.mem_univ _⟩
  obtain ⟨b, -, hb⟩ := Finset.exists_min_image Finset.univ G ⟨0, Finset.mem_univ _⟩
  have h0 : ∀ x, F x * G x = F a * G x + G b * F x - F a * G b := by
    intro x
    have h1 : (F x - F a) * (G x - G b) = 0 := by
      by_cases hx : x ∈ A
      · have hx' : x ∉ B := fun h => Set.disjoint_left.1 hAB hx h
        have := le_antisymm (hG b x hx') (hb x (Finset.mem_univ _))
        rw [this]; ring
      · have := le_antisymm (hF a x hx) (ha x (Finset.mem_univ _))
        rw [this]; ring
    linear_combination h1
  have hc : (∑ _x : Fin (2 ^ 64), (1 : ℝ)) = 2 ^ 64 := by
    rw [Finset.sum_const, Finset.card_univ, Fintype.card_fin, nsmul_eq_mul]; norm_num
  have e : mean1 (fun x => F x * G x) = F a * mean1 G + G b * mean1 F - F a * G b := by
    unfold mean1
    rw [Finset.sum_congr rfl fun x _ => h0 x, Finset.sum_sub_distrib, Finset.sum_add_distrib,
      ← Finset.mul_sum, ← Finset.mul_sum]
    have : (∑ _x : Fin (2 ^ 64), F a * G b) = F a * G b * 2 ^ 64 := by rw [← hc, Finset.mul_sum]; simp
    rw [this]; ring
  have m1 : ∀ {H : Fin (2 ^ 64) → ℝ} {c : ℝ}, (∀ x, c ≤ H x) → c ≤ mean1 H := by
    intro H c h
    unfold mean1
    rw [le_div_iff₀ (by norm_num), ← hc, Finset.mul_sum]
    exact Finset.sum_le_sum fun x _ => by rw [mul_one]; exact h x
  have h1 := m1 fun x => ha x (Finset.mem_univ _)
  have h2 := m1 fun x => hb x (Finset.mem_univ _)
  rw [e]
  nlinarith [mul_nonneg (sub_nonneg.2 h1) (sub_nonneg.2 h2)]

/-- The average over all hashes, the first one by itself. -/
theorem mean_succ {n : Nat} (f : (Fin (n + 1) → Fin (2 ^ 64)) → ℝ) :
    mean f = mean fun h : Fin n → Fin (2 ^ 64) => mean1 fun x => f (Fin.cons x h) := by
  unfold mean mean1
  have hc : (Fintype.card (Fin (n + 1) → Fin (2 ^ 64)) : ℝ) =
      2 ^ 64 * Fintype.card (Fin n → Fin (2 ^ 64)) := by
    simp only [Fintype.card_pi, Fintype.card_fin, Finset.prod_const, Finset.card_univ]
    push_cast
    ring
  have hs : ∑ h, f h = ∑ h : Fin n → Fin (2 ^ 64), ∑ x, f (Fin.cons x h) := by
    rw [← (Fin.consEquiv fun _ : Fin (n + 1) => Fin (2 ^ 64)).sum_comp, Fintype.sum_prod_type_right]
    rfl
  rw [hc, hs, ← Finset.sum_div, div_div]

theorem IncOn.mean1 {n : Nat} {A : Set (Fin (2 ^ 64))} {f : (Fin (n + 1) → Fin (2 ^ 64)) → ℝ}
    (hf : IncOn A f) : IncOn A fun h : Fin n → Fin (2 ^ 64) => mean1 fun x => f (Fin.cons x h) := by
  intro h i x y hy
  unfold HLL.mean1
  refine div_le_div_of_nonneg_right (Finset.sum_le_sum fun z _ => ?_) (by norm_num)
  rw [Fin.cons_update, Fin.cons_update]
  exact hf _ _ _ _ hy

/-- **Negative correlation** of quantities that increase with disjoint sets of hashes. -/
theorem mean_mul_le {A B : Set (Fin (2 ^ 64))} (hAB : Disjoint A B) :
    ∀ {n : Nat} {f g : (Fin n → Fin (2 ^ 64)) → ℝ}, IncOn A f → IncOn B g →
      mean (fun h => f h * g h) ≤ mean f * mean g
  | 0, f, g, _, _ => by
    have h1 : ∀ k : (Fin 0 → Fin (2 ^ 64)) → ℝ, k = fun _ => k default := fun k => by
      funext h; rw [Subsingleton.elim h default]
    rw [h1 f, h1 g]
    simp only [mean_const]
    exact le_rfl
  | n + 1, f, g, hf, hg => by
    rw [mean_succ, mean_succ f, mean_succ g]
    refine le_trans (mean_mono fun h => ?_) (mean_mul_le hAB hf.mean1 hg.mean1)
    refine mean1_mul_le hAB (fun x y hy => ?_) (fun x y hy => ?_)
    · have := hf (Fin.cons y h) 0 x y hy
      simpa using this
    · have := hg (Fin.cons y h) 0 x y hy
      simpa using this

/-- The same for decreasing quantities. -/
theorem mean_mul_le' {A B : Set (Fin (2 ^ 64))} (hAB : Disjoint A B) {n : Nat}
    {f g : (Fin n → Fin (2 ^ 64)) → ℝ} (hf : IncOn A fun h => -f h) (hg : IncOn B fun h => -g h) :
    mean (fun h => f h * g h) ≤ mean f * mean g := by
  have h := mean_mul_le hAB hf hg
  have e : ∀ k : (Fin n → Fin (2 ^ 64)) → ℝ, mean (fun h => -k h) = -mean k := fun k => by
    have := mean_mul (-1) k
    simpa using this
  rw [e f, e g] at h
  simpa using h

/-- The hashes of bucket `j`. -/
def inBucket (w p j : Nat) : Set (Fin (2 ^ 64)) := {x | bucket w p ((x : Nat) % 2 ^ w) = j}

theorem reg_update {w p j n : Nat} (h : Fin n → Fin (2 ^ 64)) (i : Fin n) (x y : Fin (2 ^ 64))
    (hy : y ∉ inBucket w p j) :
    reg w p (hashSet w (Function.update h i y)) j ≤ reg w p (hashSet w (Function.update h i x)) j := by
  unfold reg
  refine Finset.sup_le fun a ha => ?_
  rw [Finset.mem_filter] at ha
  obtain ⟨ha1, ha2⟩ := ha
  obtain ⟨k, -, rfl⟩ := Finset.mem_image.1 ha1
  have hk : k ≠ i := by
    rintro rfl
    rw [Function.update_self] at ha2
    exact hy ha2
  refine Finset.le_sup (f := rank w p) (Finset.mem_filter.2 ⟨?_, ha2⟩)
  rw [Function.update_of_ne hk]
  exact Finset.mem_image.2 ⟨k, Finset.mem_univ _, by rw [Function.update_of_ne hk]⟩

/-- **Products of increasing functions of the registers.** -/
theorem mean_prod_le_mono {w p n : Nat} {φ : Nat → ℝ} (h0 : ∀ k, 0 ≤ φ k) (hφ : Monotone φ)
    (s : Finset Nat) :
    mean (fun h : Fin n → Fin (2 ^ 64) => ∏ j ∈ s, φ (reg w p (hashSet w h) j)) ≤
      ∏ j ∈ s, mean (fun h : Fin n → Fin (2 ^ 64) => φ (reg w p (hashSet w h) j)) := by
  induction s using Finset.induction_on with
  | empty => simp only [Finset.prod_empty]; rw [mean_const]
  | insert j s hj ih =>
    simp only [Finset.prod_insert hj]
    have hA : Disjoint (inBucket w p j) {x | bucket w p ((x : Nat) % 2 ^ w) ∈ s} := by
      rw [Set.disjoint_left]
      intro x hx hx'
      exact hj (show j ∈ s from (show bucket w p ((x : Nat) % 2 ^ w) = j from hx) ▸ hx')
    refine (mean_mul_le hA ?_ ?_).trans (mul_le_mul_of_nonneg_left ih ?_)
    · exact fun h i x y hy => hφ (reg_update h i x y hy)
    · intro h i x y hy
      refine Finset.prod_le_prod (fun _ _ => h0 _) fun k hk => hφ (reg_update h i x y fun hb => hy ?_)
      exact show _ ∈ s from (show bucket w p ((y : Nat) % 2 ^ w) = k from hb) ▸ hk
    · have := mean_mono (n := n) fun h => h0 (reg w p (hashSet w h) j)
      rwa [mean_const] at this

/-- **Products of decreasing functions of the registers.** -/
theorem mean_prod_le_anti {w p n : Nat} {φ : Nat → ℝ} (h0 : ∀ k, 0 ≤ φ k) (hφ : Antitone φ)
    (s : Finset Nat) :
    mean (fun h : Fin n → Fin (2 ^ 64) => ∏ j ∈ s, φ (reg w p (hashSet w h) j)) ≤
      ∏ j ∈ s, mean (fun h : Fin n → Fin (2 ^ 64) => φ (reg w p (hashSet w h) j)) := by
  induction s using Finset.induction_on with
  | empty => simp only [Finset.prod_empty]; rw [mean_const]
  | insert j s hj ih =>
    simp only [Finset.prod_insert hj]
    have hA : Disjoint (inBucket w p j) {x | bucket w p ((x : Nat) % 2 ^ w) ∈ s} := by
      rw [Set.disjoint_left]
      intro x hx hx'
      exact hj (show j ∈ s from (show bucket w p ((x : Nat) % 2 ^ w) = j from hx) ▸ hx')
    refine (mean_mul_le' hA ?_ ?_).trans (mul_le_mul_of_nonneg_left ih ?_)
    · exact fun h i x y hy => neg_le_neg (hφ (reg_update h i x y hy))
    · intro h i x y hy
      refine neg_le_neg (Finset.prod_le_prod (fun _ _ => h0 _) fun k hk =>
        hφ (reg_update h i x y fun hb => hy ?_))
      exact show _ ∈ s from (show bucket w p ((y : Nat) % 2 ^ w) = k from hb) ▸ hk
    · have := mean_mono (n := n) fun h => h0 (reg w p (hashSet w h) j)
      rwa [mean_const] at this

end HLL
