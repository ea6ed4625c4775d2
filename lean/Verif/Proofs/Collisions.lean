import Verif.Proofs.Average
import Mathlib.Tactic.Linarith
import Mathlib.Tactic.Ring

/-! # The average number of collisions between the sparse codes of independent uniform hashes -/

namespace HLL
open Spec

/-- A function on `n` points takes at least `n` minus the number of colliding pairs values. -/
theorem card_le_image_add_pairs {n : Nat} {α : Type} [DecidableEq α] (f : Fin n → α) :
    n ≤ (Finset.univ.image f).card +
      ((Finset.univ : Finset (Fin n × Fin n)).filter fun q => q.1 < q.2 ∧ f q.1 = f q.2).card := by
  classical
  have h1 : (Finset.univ.filter fun i : Fin n => ∀ k < i, f k ≠ f i).card ≤
      (Finset.univ.image f).card := by
    refine Finset.card_le_card_of_injOn f (fun i _ => Finset.mem_coe.2 (by simp)) ?_
    intro i hi k hk hik
    simp only [Finset.coe_filter, Finset.mem_univ, true_and, Set.mem_ofPred_eq] at hi hk
    rcases lt_trichotomy i k with h | h | h
    · exact absurd hik (hk i h)
    · exact h
    · exact absurd hik.symm (hi k h)
  have h2 : (Finset.univ.filter fun i : Fin n => ¬ ∀ k < i, f k ≠ f i).card ≤
      ((Finset.univ : Finset (Fin n × Fin n)).filter fun q => q.1 < q.2 ∧ f q.1 = f q.2).card := by
    have : ∀ i : Fin n, (¬ ∀ k < i, f k ≠ f i) → ∃ k, k < i ∧ f k = f i := by
      intro i hi; push Not at hi; exact hi
    choose! g hg using this
    refine Finset.card_le_card_of_injOn (fun i => (g i, i)) ?_ ?_
    · intro i hi
      rw [Finset.mem_coe, Finset.mem_filter] at hi
      rw [Finset.mem_coe, Finset.mem_filter]
      exact ⟨Finset.mem_univ _, hg i hi.2⟩
    · intro i _ k _ h
      exact (Prod.mk.inj h).2
  have h3 := Finset.card_filter_add_card_filter_not (s := (Finset.univ : Finset (Fin n)))
    (fun i : Fin n => ∀ k < i, f k ≠ f i)
  rw [Finset.card_univ, Fintype.card_fin] at h3
  omega

/-- The number of assignments in which two given hashes agree on their first 25 bits. -/
theorem card_collide {n : Nat} {i k : Fin n} (hik : i ≠ k) :
    2 ^ 25 * (Finset.univ.filter fun h : Fin n → Fin (2 ^ 64) =>
      (h i : Nat) / 2 ^ 39 = (h k : Nat) / 2 ^ 39).card = (2 ^ 64) ^ n := by
  classical
  let A : Nat → Finset (Fin (2 ^ 64)) := fun v => Finset.univ.filter fun x => (x : Nat) / 2 ^ 39 = v
  have hA : ∀ v < 2 ^ 25, (A v).card = 2 ^ 39 := by
    intro v hv
    have := card_bucket (w := 64) (p := 25) (by norm_num) le_rfl hv
    rw [show 64 - 25 = 39 from rfl] at this
    rw [← this]
    refine congrArg Finset.card (Finset.filter_congr fun x _ => ?_)
    rw [bucket, Nat.mod_eq_of_lt x.isLt]
  have h1 : (Finset.univ.filter fun h : Fin n → Fin (2 ^ 64) =>
      (h i : Nat) / 2 ^ 39 = (h k : Nat) / 2 ^ 39) =
      (Finset.range (2 ^ 25)).biUnion fun v =>
        Fintype.piFinset fun j => if j = i ∨ j = k then A v else Finset.univ := by
    ext h
    simp only [Finset.mem_filter, Finset.mem_univ, true_and, Finset.mem_biUnion, Finset.mem_range,
      Fintype.mem_piFinset]
    constructor
    · intro hh
      refine ⟨(h i : Nat) / 2 ^ 39, ?_, ?_⟩
      · have := (h i).isLt; omega
      · intro j
        by_cases hj : j = i ∨ j = k
        · rw [if_pos hj]
          rcases hj with rfl | rfl
          · simp [A]
          · simp only [A, Finset.mem_filter, Finset.mem_univ, true_and]; exact hh.symm
        · rw [if_neg hj]; exact Finset.mem_univ _
    · rintro ⟨v, _, hv⟩
      have h1 := hv i
      have h2 := hv k
      rw [if_pos (Or.inl rfl)] at h1
      rw [if_pos (Or.inr rfl)] at h2
      simp only [A, Finset.mem_filter, Finset.mem_univ, true_and] at h1 h2
      rw [h1, h2]
  have hn : 2 ≤ n := by
    have := i.isLt; have := k.isLt
    have : (i : Nat) ≠ k := fun h => hik (Fin.ext h)
    omega
  rw [h1, Finset.card_biUnion]
  · have h2 : ∀ v ∈ Finset.range (2 ^ 25),
        (Fintype.piFinset fun j : Fin n => if j = i ∨ j = k then A v else Finset.univ).card =
          (2 ^ 39) ^ 2 * (2 ^ 64) ^ (n - 2) := by
      intro v hv
      rw [Fintype.card_piFinset]
      have h3 : ∀ j : Fin n, (if j = i ∨ j = k then A v else Finset.univ).card =
          if j = i ∨ j = k then 2 ^ 39 else 2 ^ 64 := by
        intro j
        split_ifs
        · exact hA v (Finset.mem_range.1 hv)
        · rw [Finset.card_univ, Fintype.card_fin]
      have h4 : (Finset.univ.filter fun j : Fin n => j = i ∨ j = k).card = 2 := by
        have : (Finset.univ.filter fun j : Fin n => j = i ∨ j = k) = {i, k} := by
          ext j; simp
        rw [this, Finset.card_pair hik]
      have h5 := Finset.card_filter_add_card_filter_not (s := (Finset.univ : Finset (Fin n)))
        (fun j => j = i ∨ j = k)
      rw [Finset.card_univ, Fintype.card_fin, h4] at h5
      rw [Finset.prod_congr rfl fun j _ => h3 j, Finset.prod_ite, Finset.prod_const,
        Finset.prod_const, h4, show (Finset.univ.filter fun j : Fin n => ¬ (j = i ∨ j = k)).card =
          n - 2 by omega]
    rw [Finset.sum_congr rfl h2, Finset.sum_const, Finset.card_range, smul_eq_mul]
    obtain ⟨l, rfl⟩ := Nat.exists_eq_add_of_le hn
    rw [Nat.add_sub_cancel_left, pow_add (2 ^ 64) 2 l]
    generalize (2 ^ 64) ^ l = x
    rw [← mul_assoc, ← mul_assoc]
    congr 1
  · intro v _ v' _ hvv
    rw [Function.onFun, Finset.disjoint_left]
    intro h h1 h2
    rw [Fintype.mem_piFinset] at h1 h2
    have e1 := h1 i
    have e2 := h2 i
    rw [if_pos (Or.inl rfl)] at e1 e2
    simp only [A, Finset.mem_filter, Finset.mem_univ, true_and] at e1 e2
    exact hvv (e1.symm.trans e2)

/-- Hashes with the same code agree on their first 25 bits. -/
theorem prefix_of_code {p x y : Nat} (h : code p x = code p y) : x / 2 ^ 39 = y / 2 ^ 39 := by
  have h1 := firstOne_le 39 x
  have h2 := firstOne_le 39 y
  simp only [code] at h
  generalize x / 2 ^ 39 = a at *
  generalize y / 2 ^ 39 = b at *
  split_ifs at h <;> omega

/-- The number of lost codes, summed over all assignments. -/
theorem sum_lost (p n : Nat) :
    2 ^ 26 * ∑ h : Fin n → Fin (2 ^ 64), (n - (codes p (hashSet 64 h)).card) ≤
      n * (n - 1) * (2 ^ 64) ^ n := by
  classical
  have h1 : ∀ h : Fin n → Fin (2 ^ 64), n - (codes p (hashSet 64 h)).card ≤
      ∑ q : Fin n × Fin n, if q.1 < q.2 ∧ (h q.1 : Nat) / 2 ^ 39 = (h q.2 : Nat) / 2 ^ 39
        then 1 else 0 := by
    intro h
    have e : codes p (hashSet 64 h) = Finset.univ.image fun i => code p (h i : Nat) := by
      rw [codes, hashSet, Finset.image_image]
      refine Finset.image_congr fun i _ => ?_
      simp only [Function.comp]
      rw [Nat.mod_eq_of_lt (h i).isLt]
    have := card_le_image_add_pairs fun i => code p (h i : Nat)
    rw [e, ← Finset.card_filter]
    have h2 : ((Finset.univ : Finset (Fin n × Fin n)).filter fun q =>
        q.1 < q.2 ∧ code p (h q.1) = code p (h q.2)).card ≤
        ((Finset.univ : Finset (Fin n × Fin n)).filter fun q =>
        q.1 < q.2 ∧ (h q.1 : Nat) / 2 ^ 39 = (h q.2 : Nat) / 2 ^ 39).card := by
      apply Finset.card_le_card
      intro q
      simp only [Finset.mem_filter, Finset.mem_univ, true_and]
      exact fun hq => ⟨hq.1, prefix_of_code hq.2⟩
    omega
  have h2 : 2 ^ 25 * ∑ h : Fin n → Fin (2 ^ 64), ∑ q : Fin n × Fin n,
      (if q.1 < q.2 ∧ (h q.1 : Nat) / 2 ^ 39 = (h q.2 : Nat) / 2 ^ 39 then 1 else 0) =
      ∑ q : Fin n × Fin n, if q.1 < q.2 then (2 ^ 64) ^ n else 0 := by
    rw [Finset.sum_comm, Finset.mul_sum]
    refine Finset.sum_congr rfl fun q _ => ?_
    by_cases hq : q.1 < q.2
    · simp only [hq, true_and, if_true]
      rw [← Finset.card_filter, card_collide (ne_of_lt hq)]
    · simp [hq]
  have h3 : 2 * ((Finset.univ : Finset (Fin n × Fin n)).filter fun q => q.1 < q.2).card ≤
      n * (n - 1) := by
    have e1 : ((Finset.univ : Finset (Fin n × Fin n)).filter fun q => q.1 < q.2).card =
        ((Finset.univ : Finset (Fin n × Fin n)).filter fun q => q.2 < q.1).card := by
      refine Finset.card_bij (fun q _ => q.swap) ?_ ?_ ?_
      · intro q hq; simpa using hq
      · intro a _ b _ h; exact Prod.swap_injective h
      · intro b hb; exact ⟨b.swap, by simpa using hb, by simp⟩
    have e2 : ((Finset.univ : Finset (Fin n × Fin n)).filter fun q => q.1 < q.2).card +
        ((Finset.univ : Finset (Fin n × Fin n)).filter fun q => q.2 < q.1).card ≤
        (Finset.univ : Finset (Fin n)).offDiag.card := by
      rw [← Finset.card_union_of_disjoint]
      · apply Finset.card_le_card
        intro q hq
        simp only [Finset.mem_union, Finset.mem_filter, Finset.mem_univ, true_and] at hq
        simp only [Finset.mem_offDiag, Finset.mem_univ, true_and]
        rcases hq with hq | hq
        exacts [ne_of_lt hq, ne_of_gt hq]
      · rw [Finset.disjoint_filter]
        intro q _ h1 h2
        exact absurd h1 (not_lt.2 h2.le)
    rw [Finset.offDiag_card, Finset.card_univ, Fintype.card_fin] at e2
    rw [Nat.mul_sub_one]
    omega
  calc 2 ^ 26 * ∑ h : Fin n → Fin (2 ^ 64), (n - (codes p (hashSet 64 h)).card)
      ≤ 2 ^ 26 * ∑ h : Fin n → Fin (2 ^ 64), ∑ q : Fin n × Fin n,
        (if q.1 < q.2 ∧ (h q.1 : Nat) / 2 ^ 39 = (h q.2 : Nat) / 2 ^ 39 then 1 else 0) :=
        Nat.mul_le_mul_left _ (Finset.sum_le_sum fun h _ => h1 h)
    _ = 2 * (2 ^ 25 * ∑ h : Fin n → Fin (2 ^ 64), ∑ q : Fin n × Fin n,
        (if q.1 < q.2 ∧ (h q.1 : Nat) / 2 ^ 39 = (h q.2 : Nat) / 2 ^ 39 then 1 else 0)) := by
        rw [← mul_assoc, show 2 * 2 ^ 25 = 2 ^ 26 from rfl]
    _ = 2 * ((Finset.univ : Finset (Fin n × Fin n)).filter fun q => q.1 < q.2).card *
        (2 ^ 64) ^ n := by
        rw [h2, ← Finset.sum_filter, Finset.sum_const, smul_eq_mul, mul_assoc]
    _ ≤ _ := Nat.mul_le_mul_right _ h3

theorem card_codes_le (p : Nat) {n : Nat} (h : Fin n → Fin (2 ^ 64)) :
    (codes p (hashSet 64 h)).card ≤ n := by
  refine (Finset.card_image_le).trans ((Finset.card_image_le).trans ?_)
  rw [Finset.card_univ, Fintype.card_fin]

/-- The average number of codes is short of `n` by at most `n(n-1)/2^26`. -/
theorem average_codes (p n : Nat) :
    (n : ℝ) - n * (n - 1) / 2 ^ 26 ≤
      (∑ h : Fin n → Fin (2 ^ 64), ((codes p (hashSet 64 h)).card : ℝ)) /
        Fintype.card (Fin n → Fin (2 ^ 64)) := by
  have h1 := sum_lost p n
  have hc : (0 : ℝ) < Fintype.card (Fin n → Fin (2 ^ 64)) := by
    exact_mod_cast Fintype.card_pos
  have hcard : (Fintype.card (Fin n → Fin (2 ^ 64)) : ℝ) = ((2 ^ 64) ^ n : ℕ) := by
    rw [Fintype.card_fun, Fintype.card_fin, Fintype.card_fin]
  have h2 : ((2 ^ 26 * ∑ h : Fin n → Fin (2 ^ 64), (n - (codes p (hashSet 64 h)).card) : ℕ) : ℝ) ≤
      ((n * (n - 1) * (2 ^ 64) ^ n : ℕ) : ℝ) := by exact_mod_cast h1
  rw [Nat.cast_mul, Nat.cast_sum, Nat.cast_mul (n * (n - 1)), ← hcard] at h2
  have h3 : ∀ h : Fin n → Fin (2 ^ 64), ((n - (codes p (hashSet 64 h)).card : ℕ) : ℝ) =
      n - ((codes p (hashSet 64 h)).card : ℝ) := by
    intro h; rw [Nat.cast_sub (card_codes_le p h)]
  rw [Finset.sum_congr rfl fun h _ => h3 h, Finset.sum_sub_distrib, Finset.sum_const,
    Finset.card_univ, nsmul_eq_mul] at h2
  have h4 : ((n * (n - 1) : ℕ) : ℝ) = n * (n - 1) := by
    rcases Nat.eq_zero_or_pos n with rfl | h
    · simp
    · rw [Nat.cast_mul, Nat.cast_sub h]; simp
  rw [h4] at h2
  rw [le_div_iff₀ hc]
  have h5 : ((2 ^ 26 : ℕ) : ℝ) = 2 ^ 26 := by norm_num
  rw [h5] at h2
  have h6 : (n : ℝ) * (n - 1) / 2 ^ 26 * Fintype.card (Fin n → Fin (2 ^ 64)) * 2 ^ 26 =
      n * (n - 1) * Fintype.card (Fin n → Fin (2 ^ 64)) := by ring
  nlinarith

/-- **Markov.** The fraction of the assignments that lose `a` or more codes. -/
theorem markov_codes (p n : Nat) {a : ℝ} (ha : 0 < a) :
    ((Finset.univ.filter fun h : Fin n → Fin (2 ^ 64) =>
        ((codes p (hashSet 64 h)).card : ℝ) + a ≤ n).card : ℝ) /
      Fintype.card (Fin n → Fin (2 ^ 64)) ≤ n * (n - 1) / (2 ^ 26 * a) := by
  have h1 := average_codes p n
  have hc : (0 : ℝ) < Fintype.card (Fin n → Fin (2 ^ 64)) := by
    exact_mod_cast Fintype.card_pos
  rw [le_div_iff₀ hc] at h1
  set B := Finset.univ.filter fun h : Fin n → Fin (2 ^ 64) =>
    ((codes p (hashSet 64 h)).card : ℝ) + a ≤ n with hB
  have h2 : (B.card : ℝ) * a ≤ ∑ h : Fin n → Fin (2 ^ 64),
      ((n : ℝ) - ((codes p (hashSet 64 h)).card : ℝ)) := by
    calc (B.card : ℝ) * a = ∑ _h ∈ B, a := by rw [Finset.sum_const, nsmul_eq_mul]
      _ ≤ ∑ h ∈ B, ((n : ℝ) - ((codes p (hashSet 64 h)).card : ℝ)) := by
          refine Finset.sum_le_sum fun h hh => ?_
          rw [hB, Finset.mem_filter] at hh
          linarith [hh.2]
      _ ≤ _ := by
          refine Finset.sum_le_sum_of_subset_of_nonneg (Finset.subset_univ _) fun h _ _ => ?_
          have : ((codes p (hashSet 64 h)).card : ℝ) ≤ n := by exact_mod_cast card_codes_le p h
          linarith
  rw [Finset.sum_sub_distrib, Finset.sum_const, Finset.card_univ, nsmul_eq_mul] at h2
  rw [div_le_div_iff₀ hc (by positivity)]
  have h6 : (n : ℝ) * (n - 1) / 2 ^ 26 * Fintype.card (Fin n → Fin (2 ^ 64)) * 2 ^ 26 =
      n * (n - 1) * Fintype.card (Fin n → Fin (2 ^ 64)) := by ring
  nlinarith

end HLL
