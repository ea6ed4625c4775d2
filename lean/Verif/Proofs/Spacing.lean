import Verif.Proofs.Chernoff
import Verif.Proofs.Collisions
import Verif.Props.Lifetime
import Mathlib.Data.Fin.Tuple.Basic

/-!
# Size of the sparse representation for random hashes

The encoded size of a set of codes is at least twice its number of codes minus the number of codes closer than
128 to the next smaller one; these are few for random hashes.  It is at most twice the number of codes, plus
4096, plus three times the number of codes above `2^26`.
-/

namespace HLL
open Spec

/-! ## From below -/

/-- The code `c` takes one byte after the set `C`. -/
def Close (C : Finset Nat) (c : Nat) : Prop := c < 128 ∨ ∃ d ∈ C, d < c ∧ c < d + 128

instance (C : Finset Nat) (c : Nat) : Decidable (Close C c) := by unfold Close; infer_instance

/-- The number of codes that take one byte. -/
def nClose (C : Finset Nat) : Nat := (C.filter (Close C)).card

theorem varLen_ge_two {g : Nat} (h : 128 ≤ g) : 2 ≤ varLen g := by
  rw [varLen, if_neg (by omega)]
  have := varLen_pos (g / 128)
  omega

theorem gapsSize_ge {C : Finset Nat} : ∀ (L : List Nat) (prev : Nat), (prev = 0 ∨ prev ∈ C ∧ ∀ x ∈ L, prev < x) →
    L.Pairwise (· < ·) → (∀ x ∈ L, x ∈ C) →
    2 * L.length ≤ gapsSize prev L + (L.filter (Close C ·)).length := by
  intro L
  induction L with
  | nil => intro prev _ _ _; simp
  | cons c cs ih =>
    intro prev hp hs hC
    have h1 := ih c (Or.inr ⟨hC c (by simp), (List.pairwise_cons.1 hs).1⟩) (List.pairwise_cons.1 hs).2
      fun x hx => hC x (by simp [hx])
    rw [gapsSize, List.length_cons, List.filter_cons]
    have h2 := varLen_pos (c - prev)
    by_cases hc : Close C c
    · rw [if_pos (by simpa using hc), List.length_cons]
      omega
    · rw [if_neg (by simpa using hc)]
      have : 128 ≤ c - prev := by
        by_contra h3
        apply hc
        rcases hp with rfl | ⟨hp1, hp2⟩
        · exact Or.inl (by omega)
        · exact Or.inr ⟨prev, hp1, hp2 c (by simp), by have := hp2 c (by simp); omega⟩
      have := varLen_ge_two this
      omega

/-- The encoded size from below. -/
theorem encSize_ge (C : Finset Nat) : 2 * C.card ≤ encSize C + nClose C := by
  have h := gapsSize_ge (C := C) (C.sort (· ≤ ·)) 0 (Or.inl rfl) (Finset.sortedLT_sort C).pairwise
    (fun x hx => (Finset.mem_sort _).1 hx)
  rw [Finset.length_sort] at h
  refine h.trans (Nat.add_le_add_left (le_of_eq ?_) _)
  rw [nClose, ← List.toFinset_card_of_nodup ((Finset.sort_nodup C (· ≤ ·)).filter _)]
  congr 1
  ext x
  simp

/-- What a new code may cost. -/
def cost (C : Finset Nat) (c : Nat) : Nat :=
  if c ∈ C then 2 else (if Close C c then 1 else 0) + if ∃ d ∈ C, c < d ∧ d < c + 128 then 1 else 0

theorem cost_le_two (C : Finset Nat) (c : Nat) : cost C c ≤ 2 := by
  unfold cost; split_ifs <;> omega

theorem nClose_insert (C : Finset Nat) (c : Nat) :
    2 * C.card + nClose (insert c C) + 2 ≤ 2 * (insert c C).card + nClose C + cost C c := by
  by_cases hc : c ∈ C
  · rw [Finset.insert_eq_of_mem hc, cost, if_pos hc]
  · rw [Finset.card_insert_of_notMem hc, cost, if_neg hc]
    -- codes that become close
    let N := C.filter fun d => ¬ Close C d ∧ c < d ∧ d < c + 128
    have hN : N.card ≤ if ∃ d ∈ C, c < d ∧ d < c + 128 then 1 else 0 := by
      split_ifs with h
      · rw [Finset.card_le_one]
        intro a ha b hb
        simp only [N, Finset.mem_filter] at ha hb
        by_contra hab
        rcases Nat.lt_or_gt_of_ne hab with h1 | h1
        · exact hb.2.1 (Or.inr ⟨a, ha.1, h1, by omega⟩)
        · exact ha.2.1 (Or.inr ⟨b, hb.1, h1, by omega⟩)
      · rw [Nat.le_zero, Finset.card_eq_zero, Finset.filter_eq_empty_iff]
        exact fun d hd h1 => h ⟨d, hd, h1.2⟩
    have hsub : (insert c C).filter (Close (insert c C)) ⊆
        (if Close C c then {c} else ∅) ∪ (C.filter (Close C) ∪ N) := by
      intro x hx
      rw [Finset.mem_filter, Finset.mem_insert] at hx
      rw [Finset.mem_union]
      rcases hx with ⟨rfl | hxC, h1⟩
      · left
        have : Close C x := by
          rcases h1 with h1 | ⟨d, hd, h2, h3⟩
          · exact Or.inl h1
          · rcases Finset.mem_insert.1 hd with rfl | hd
            · omega
            · exact Or.inr ⟨d, hd, h2, h3⟩
        rw [if_pos this]; simp
      · right
        rw [Finset.mem_union]
        by_cases h2 : Close C x
        · exact Or.inl (Finset.mem_filter.2 ⟨hxC, h2⟩)
        · right
          refine Finset.mem_filter.2 ⟨hxC, h2, ?_⟩
          rcases h1 with h1 | ⟨d, hd, h3, h4⟩
          · exact absurd (Or.inl h1) h2
          · rcases Finset.mem_insert.1 hd with rfl | hd
            · exact ⟨h3, h4⟩
            · exact absurd (Or.inr ⟨d, hd, h3, h4⟩) h2
    have h1 := Finset.card_le_card hsub
    have h2 := Finset.card_union_le (if Close C c then {c} else ∅) (C.filter (Close C) ∪ N)
    have h3 := Finset.card_union_le (C.filter (Close C)) N
    have h4 : (if Close C c then ({c} : Finset Nat) else ∅).card = if Close C c then 1 else 0 := by
      split_ifs <;> simp
    rw [nClose, nClose]
    omega

/-! ## Random codes -/

/-- Hashes whose first 25 bits are in a set. -/
theorem card_prefix_in (D : Finset Nat) :
    (Finset.univ.filter fun x : Fin (2 ^ 64) => (x : Nat) / 2 ^ 39 ∈ D).card ≤ D.card * 2 ^ 39 := by
  classical
  have e : (Finset.univ.filter fun x : Fin (2 ^ 64) => (x : Nat) / 2 ^ 39 ∈ D) ⊆
      D.biUnion fun v => Finset.univ.filter fun x : Fin (2 ^ 64) => (x : Nat) / 2 ^ 39 = v := by
    intro x hx
    rw [Finset.mem_biUnion]
    exact ⟨_, (Finset.mem_filter.1 hx).2, Finset.mem_filter.2 ⟨Finset.mem_univ _, rfl⟩⟩
  refine (Finset.card_le_card e).trans (Finset.card_biUnion_le_card_mul _ _ _ fun v _ => ?_)
  rcases Nat.lt_or_ge v (2 ^ 25) with hv | hv
  · have := card_bucket (w := 64) (p := 25) (by norm_num) le_rfl hv
    rw [show 64 - 25 = 39 from rfl] at this
    refine le_trans (le_of_eq (congrArg Finset.card (Finset.filter_congr fun x _ => ?_))) this.le
    rw [bucket, Nat.mod_eq_of_lt x.isLt]
  · rw [Finset.filter_eq_empty_iff.2, Finset.card_empty]
    · positivity
    · intro x _ hx
      have := x.isLt
      omega

/-- The hashes whose codes are within 128 of `d`. -/
theorem card_near (p d : Nat) :
    (Finset.univ.filter fun x : Fin (2 ^ 64) => d < code p x + 128 ∧ code p x < d + 128).card ≤
      132 * 2 ^ 39 := by
  classical
  let D := Finset.Icc (d / 2 - 64) (d / 2 + 64) ∪ Finset.Icc (d / 128 - 1) (d / 128 + 1)
  have h1 : D.card ≤ 132 := by
    refine (Finset.card_union_le _ _).trans ?_
    rw [Nat.card_Icc, Nat.card_Icc]
    omega
  refine (Finset.card_le_card ?_).trans ((card_prefix_in D).trans (Nat.mul_le_mul_right _ h1))
  intro x hx
  rw [Finset.mem_filter] at hx ⊢
  refine ⟨Finset.mem_univ _, ?_⟩
  obtain ⟨-, hx1, hx2⟩ := hx
  rw [Finset.mem_union, Finset.mem_Icc, Finset.mem_Icc]
  have h3 := firstOne_le 39 (x : Nat)
  unfold code at hx1 hx2
  simp only at hx1 hx2
  generalize (x : Nat) / 2 ^ 39 = i at *
  generalize firstOne 39 (x : Nat) = r at *
  split_ifs at hx1 hx2
  · right; omega
  · left; omega

theorem card_low (p : Nat) :
    (Finset.univ.filter fun x : Fin (2 ^ 64) => code p x < 128).card ≤ 64 * 2 ^ 39 := by
  refine (Finset.card_le_card ?_).trans ((card_prefix_in (Finset.range 64)).trans
    (le_of_eq (by rw [Finset.card_range])))
  intro x hx
  rw [Finset.mem_filter] at hx ⊢
  refine ⟨Finset.mem_univ _, Finset.mem_range.2 ?_⟩
  have hx1 := hx.2
  unfold code at hx1
  simp only at hx1
  generalize (x : Nat) / 2 ^ 39 = i at *
  split_ifs at hx1 <;> omega

theorem card_same (p d : Nat) :
    (Finset.univ.filter fun x : Fin (2 ^ 64) => code p x = d).card ≤ 1 * 2 ^ 39 := by
  classical
  by_cases h : ∃ y : Fin (2 ^ 64), code p y = d
  · obtain ⟨y, rfl⟩ := h
    refine (Finset.card_le_card ?_).trans ((card_prefix_in {(y : Nat) / 2 ^ 39}).trans
      (le_of_eq (by rw [Finset.card_singleton])))
    intro x hx
    rw [Finset.mem_filter] at hx ⊢
    exact ⟨Finset.mem_univ _, Finset.mem_singleton.2 (prefix_of_code hx.2)⟩
  · rw [Finset.filter_eq_empty_iff.2, Finset.card_empty]
    · positivity
    · exact fun x _ hx => h ⟨x, hx⟩

theorem cost_le_sum (C : Finset Nat) (c : Nat) :
    cost C c ≤ (if c < 128 then 1 else 0) +
      ∑ d ∈ C, ((if d < c + 128 ∧ c < d + 128 then 1 else 0) + if c = d then 1 else 0) := by
  classical
  rw [Finset.sum_add_distrib, Finset.sum_ite_eq C c]
  rw [← Finset.card_filter]
  let A := C.filter fun d => d < c + 128 ∧ c < d + 128
  have hA : A = C.filter fun d => d < c + 128 ∧ c < d + 128 := rfl
  rw [← hA]
  unfold cost
  by_cases hc : c ∈ C
  · have : 0 < A.card := Finset.card_pos.2 ⟨c, Finset.mem_filter.2 ⟨hc, by omega, by omega⟩⟩
    rw [if_pos hc, if_pos hc]
    omega
  · rw [if_neg hc, if_neg hc]
    by_cases hr : ∃ d ∈ C, c < d ∧ d < c + 128
    · obtain ⟨d, hd, hd1, hd2⟩ := hr
      have hdA : d ∈ A := Finset.mem_filter.2 ⟨hd, by omega, by omega⟩
      have h0 : 0 < A.card := Finset.card_pos.2 ⟨d, hdA⟩
      by_cases hl : Close C c
      · rcases hl with hl | ⟨d', hd', hd1', hd2'⟩
        · rw [if_pos hl]
          split_ifs <;> omega
        · have h2 : 1 < A.card := Finset.one_lt_card.2
            ⟨d, hdA, d', Finset.mem_filter.2 ⟨hd', by omega, by omega⟩, by omega⟩
          split_ifs <;> omega
      · rw [if_neg hl]
        split_ifs <;> omega
    · rw [if_neg hr]
      by_cases hl : Close C c
      · rcases hl with hl | ⟨d', hd', hd1', hd2'⟩
        · rw [if_pos hl]
          split_ifs <;> omega
        · have h2 : 0 < A.card := Finset.card_pos.2
            ⟨d', Finset.mem_filter.2 ⟨hd', by omega, by omega⟩⟩
          split_ifs <;> omega
      · rw [if_neg hl]
        omega

theorem sum_cost_nat {X : Type} (s : Finset X) (f : X → Nat) (C : Finset Nat) {a b e : Nat}
    (ha : (s.filter fun x => f x < 128).card ≤ a)
    (hb : ∀ d, (s.filter fun x => d < f x + 128 ∧ f x < d + 128).card ≤ b)
    (he : ∀ d, (s.filter fun x => f x = d).card ≤ e) :
    s.sum (fun x => cost C (f x)) ≤ a + C.card * (b + e) := by
  classical
  refine (Finset.sum_le_sum fun x _ => cost_le_sum C (f x)).trans ?_
  rw [Finset.sum_add_distrib, ← Finset.card_filter, Finset.sum_comm]
  refine Nat.add_le_add ha ?_
  rw [← smul_eq_mul]
  refine Finset.sum_le_card_nsmul C _ _ fun d _ => ?_
  rw [Finset.sum_add_distrib, ← Finset.card_filter, ← Finset.card_filter]
  exact Nat.add_le_add (hb d) (he d)

/-- The total cost of a random code. -/
theorem sum_cost (p : Nat) (C : Finset Nat) :
    ∑ x : Fin (2 ^ 64), (cost C (code p x) : ℝ) ≤ (133 * C.card + 64) * 2 ^ 39 := by
  have h2 := (Nat.cast_le (α := ℝ)).2 (sum_cost_nat Finset.univ (fun x : Fin (2 ^ 64) => code p x) C
    (card_low p) (card_near p) (card_same p))
  rw [Nat.cast_sum] at h2
  refine h2.trans (le_of_eq ?_)
  push_cast
  ring

theorem exp_cost {t : ℝ} {y : Nat} (hy : y ≤ 2) :
    Real.exp (t * y) ≤ 1 + (Real.exp (2 * t) - 1) / 2 * y := by
  have e : Real.exp (2 * t) = Real.exp t ^ 2 := by rw [← Real.exp_nat_mul]; norm_num
  rw [e]
  interval_cases y
  · simp
  · have := sq_nonneg (Real.exp t - 1)
    norm_num
    linarith
  · have : Real.exp (t * (2 : ℕ)) = Real.exp t ^ 2 := by rw [← Real.exp_nat_mul, mul_comm]
    rw [this]
    push_cast
    linarith

/-- Twice the number of values minus what is certainly stored. -/
noncomputable def loss (p : Nat) {n : Nat} (h : Fin n → Fin (2 ^ 64)) : ℝ :=
  2 * n + nClose (codes p (hashSet 64 h)) - 2 * (codes p (hashSet 64 h)).card

theorem hashSet_cons {n : Nat} (x : Fin (2 ^ 64)) (h : Fin n → Fin (2 ^ 64)) :
    hashSet 64 (Fin.cons x h : Fin (n + 1) → Fin (2 ^ 64)) = insert (x : Nat) (hashSet 64 h) := by
  ext y
  simp only [hashSet, Finset.mem_image, Finset.mem_univ, true_and, Finset.mem_insert, Fin.exists_fin_succ,
    Fin.cons_zero, Fin.cons_succ]
  rw [Nat.mod_eq_of_lt x.isLt]
  exact or_congr_left eq_comm

theorem loss_cons (p : Nat) {n : Nat} (x : Fin (2 ^ 64)) (h : Fin n → Fin (2 ^ 64)) :
    loss p (Fin.cons x h : Fin (n + 1) → Fin (2 ^ 64)) ≤ loss p h + cost (codes p (hashSet 64 h)) (code p x) := by
  have e : codes p (hashSet 64 (Fin.cons x h : Fin (n + 1) → Fin (2 ^ 64))) =
      insert (code p x) (codes p (hashSet 64 h)) := by
    rw [hashSet_cons, codes, codes, Finset.image_insert]
  have := (Nat.cast_le (α := ℝ)).2 (nClose_insert (codes p (hashSet 64 h)) (code p x))
  unfold loss
  rw [e]
  push_cast at this ⊢
  linarith

/-- Exponential moments of the loss. -/
theorem mgf_loss (p : Nat) {t : ℝ} (ht : 0 ≤ t) (n : Nat) :
    mean (fun h : Fin n → Fin (2 ^ 64) => Real.exp (t * loss p h)) ≤
      Real.exp ((Real.exp (2 * t) - 1) / 2 * (66.5 * n * (n + 1) / 2 ^ 25)) := by
  have hK : 0 ≤ (Real.exp (2 * t) - 1) / 2 := by
    have := Real.one_le_exp (show 0 ≤ 2 * t by linarith)
    linarith
  obtain ⟨K, hKe⟩ : ∃ K, K = (Real.exp (2 * t) - 1) / 2 := ⟨_, rfl⟩
  rw [← hKe] at hK ⊢
  induction n with
  | zero =>
    have : ∀ h : Fin 0 → Fin (2 ^ 64), loss p h = 0 := by
      intro h
      have : hashSet 64 h = ∅ := by simp [hashSet]
      simp [loss, this, codes, nClose]
    simp only [this]
    rw [mean_const]
    simp
  | succ n ih =>
    rw [mean_succ]
    have step : ∀ h : Fin n → Fin (2 ^ 64),
        mean1 (fun x => Real.exp (t * loss p (Fin.cons x h : Fin (n + 1) → Fin (2 ^ 64)))) ≤
          Real.exp (K * (133 * (n + 1) / 2 ^ 25)) * Real.exp (t * loss p h) := by
      intro h
      have hc : (codes p (hashSet 64 h)).card ≤ n := card_codes_le p h
      have hcr : ((codes p (hashSet 64 h)).card : ℝ) ≤ n := by exact_mod_cast hc
      have h1 : mean1 (fun x => Real.exp (t * loss p (Fin.cons x h : Fin (n + 1) → Fin (2 ^ 64)))) ≤
          mean1 (fun x => Real.exp (t * loss p h) *
            (1 + K * (cost (codes p (hashSet 64 h)) (code p x) : ℝ))) := by
        unfold mean1
        refine div_le_div_of_nonneg_right (Finset.sum_le_sum fun x _ => ?_) (by positivity)
        refine (Real.exp_le_exp.2 (mul_le_mul_of_nonneg_left (loss_cons p x h) ht)).trans ?_
        rw [mul_add, Real.exp_add]
        refine mul_le_mul_of_nonneg_left ?_ (Real.exp_pos _).le
        rw [hKe]
        exact exp_cost (cost_le_two _ _)
      have h2 : mean1 (fun x => Real.exp (t * loss p h) *
            (1 + K * (cost (codes p (hashSet 64 h)) (code p x) : ℝ))) =
          Real.exp (t * loss p h) * (1 + K *
            ((∑ x : Fin (2 ^ 64), (cost (codes p (hashSet 64 h)) (code p x) : ℝ)) / 2 ^ 64)) := by
        unfold mean1
        rw [← Finset.mul_sum, Finset.sum_add_distrib, ← Finset.mul_sum, Finset.sum_const,
          Finset.card_univ, Fintype.card_fin, nsmul_eq_mul, mul_one]
        push_cast
        field_simp
        norm_num
      have h3 : (∑ x : Fin (2 ^ 64), (cost (codes p (hashSet 64 h)) (code p x) : ℝ)) / 2 ^ 64 ≤
          133 * (n + 1) / 2 ^ 25 := by
        have h4 := sum_cost p (codes p (hashSet 64 h))
        rw [div_le_div_iff₀ (by positivity) (by positivity)]
        generalize (∑ x : Fin (2 ^ 64), (cost (codes p (hashSet 64 h)) (code p x) : ℝ)) = s at *
        norm_num at h4 ⊢
        linarith
      refine h1.trans (h2.trans_le ?_)
      rw [mul_comm]
      refine mul_le_mul_of_nonneg_right ?_ (Real.exp_pos _).le
      refine le_trans ?_ (Real.add_one_le_exp _)
      rw [add_comm]
      gcongr
    refine (mean_mono step).trans ?_
    rw [mean_mul]
    refine (mul_le_mul_of_nonneg_left ih (Real.exp_pos _).le).trans (le_of_eq ?_)
    rw [← Real.exp_add]
    congr 1
    push_cast
    ring

/-- Codes outside a subset cost at most two bytes each. -/
theorem two_card_le {C L T : Finset Nat} (hL : L ⊆ C) (hC : C ⊆ L ∪ T) :
    2 * C.card ≤ encSize L + 2 * T.card + nClose C := by
  have h1 := encSize_ge L
  have h2 : nClose L ≤ nClose C := by
    refine Finset.card_le_card fun x hx => ?_
    rw [Finset.mem_filter] at hx ⊢
    refine ⟨hL hx.1, hx.2.imp id ?_⟩
    rintro ⟨d, hd, h⟩
    exact ⟨d, hL hd, h⟩
  have h3 := (Finset.card_le_card hC).trans (Finset.card_union_le L T)
  omega

/-- The probability that `n` values take at most `c` bytes. -/
theorem fraction_small (p : Nat) {t : ℝ} (ht : 0 ≤ t) (n c : Nat) :
    fraction (fun h : Fin n → Fin (2 ^ 64) => 2 * (codes p (hashSet 64 h)).card ≤
        c + nClose (codes p (hashSet 64 h))) ≤
      Real.exp ((Real.exp (2 * t) - 1) / 2 * (66.5 * n * (n + 1) / 2 ^ 25) - t * (2 * n - c)) := by
  have h1 : fraction (fun h : Fin n → Fin (2 ^ 64) => 2 * (codes p (hashSet 64 h)).card ≤
        c + nClose (codes p (hashSet 64 h))) ≤
      fraction (fun h : Fin n → Fin (2 ^ 64) => t * (2 * n - c) ≤ t * loss p h) := by
    refine fraction_mono fun h hh => mul_le_mul_of_nonneg_left ?_ ht
    have h3 := (Nat.cast_le (α := ℝ)).2 hh
    unfold loss
    push_cast at h3
    linarith
  refine h1.trans ((markov_exp _ _).trans ?_)
  rw [sub_eq_add_neg _ (t * _), Real.exp_add]
  exact mul_le_mul_of_nonneg_right (mgf_loss p ht n) (Real.exp_pos _).le

/-- More values than `0.62` of the capacity take more than the capacity, even without one hundredth of the
codes, with probability `1 - 2·10^-7`. -/
theorem fraction_still_sparse {p : Nat} (h1 : 4 ≤ p) (h2 : p ≤ 18) :
    fraction (fun h : Fin (31 * capacity p / 50 + 1) → Fin (2 ^ 64) =>
      2 * (codes p (hashSet 64 h)).card ≤
        capacity p + 2 * (capacity p / 100) + nClose (codes p (hashSet 64 h))) ≤ 2 / 10 ^ 7 := by
  have e1 : Real.exp 1 ≤ 2.7182818286 := Real.exp_one_lt_d9.le
  have e1' : 2.7182818283 ≤ Real.exp 1 := Real.exp_one_gt_d9.le
  have e8 : (Real.exp (2 * 4) - 1) / 2 ≤ 1500 := by
    have : Real.exp (2 * 4) = Real.exp 1 ^ 8 := by rw [← Real.exp_nat_mul]; norm_num
    rw [this]
    have : Real.exp 1 ^ 8 ≤ 2.7182818286 ^ 8 := pow_le_pow_left₀ (Real.exp_pos _).le e1 8
    norm_num at this ⊢
    linarith
  have e2 : (Real.exp (2 * 1) - 1) / 2 ≤ 3.2 := by
    have : Real.exp (2 * 1) = Real.exp 1 ^ 2 := by rw [← Real.exp_nat_mul]; norm_num
    rw [this]
    have : Real.exp 1 ^ 2 ≤ 2.7182818286 ^ 2 := pow_le_pow_left₀ (Real.exp_pos _).le e1 2
    norm_num at this ⊢
    linarith
  have e04 : (Real.exp (2 * 0.2) - 1) / 2 ≤ 0.246 := by
    have h5 : Real.exp (2 * 0.2) ^ 5 = Real.exp 1 ^ 2 := by
      rw [← Real.exp_nat_mul, ← Real.exp_nat_mul]; norm_num
    have h6 : Real.exp (2 * 0.2) ≤ 1.492 := by
      by_contra hc
      push Not at hc
      have h7 : (1.492 : ℝ) ^ 5 < Real.exp (2 * 0.2) ^ 5 := pow_lt_pow_left₀ hc (by norm_num) (by norm_num)
      have : Real.exp 1 ^ 2 ≤ 2.7182818286 ^ 2 := pow_le_pow_left₀ (Real.exp_pos _).le e1 2
      rw [h5] at h7
      norm_num at this h7
      linarith
    linarith
  have hfin : ∀ x : ℝ, x ≤ -15.5 → Real.exp x ≤ 2 / 10 ^ 7 := by
    intro x hx
    refine (Real.exp_le_exp.2 hx).trans ?_
    rw [Real.exp_neg, inv_le_comm₀ (Real.exp_pos _) (by norm_num)]
    refine (pow_le_pow_iff_left₀ (by norm_num) (Real.exp_pos _).le two_ne_zero).1 ?_
    have : Real.exp 15.5 ^ 2 = Real.exp 1 ^ 31 := by
      rw [← Real.exp_nat_mul, ← Real.exp_nat_mul]; norm_num
    rw [this]
    refine le_trans ?_ (pow_le_pow_left₀ (by norm_num) e1' 31)
    norm_num
  interval_cases p
  · refine (fraction_small 4 (t := 4) (by norm_num) _ _).trans (hfin _ ?_)
    norm_num [capacity] at e8 ⊢
    linarith
  · refine (fraction_small 5 (t := 4) (by norm_num) _ _).trans (hfin _ ?_)
    norm_num [capacity] at e8 ⊢
    linarith
  · refine (fraction_small 6 (t := 4) (by norm_num) _ _).trans (hfin _ ?_)
    norm_num [capacity] at e8 ⊢
    linarith
  · refine (fraction_small 7 (t := 4) (by norm_num) _ _).trans (hfin _ ?_)
    norm_num [capacity] at e8 ⊢
    linarith
  · refine (fraction_small 8 (t := 4) (by norm_num) _ _).trans (hfin _ ?_)
    norm_num [capacity] at e8 ⊢
    linarith
  · refine (fraction_small 9 (t := 4) (by norm_num) _ _).trans (hfin _ ?_)
    norm_num [capacity] at e8 ⊢
    linarith
  · refine (fraction_small 10 (t := 1) (by norm_num) _ _).trans (hfin _ ?_)
    norm_num [capacity] at e2 ⊢
    linarith
  · refine (fraction_small 11 (t := 1) (by norm_num) _ _).trans (hfin _ ?_)
    norm_num [capacity] at e2 ⊢
    linarith
  · refine (fraction_small 12 (t := 1) (by norm_num) _ _).trans (hfin _ ?_)
    norm_num [capacity] at e2 ⊢
    linarith
  · refine (fraction_small 13 (t := 1) (by norm_num) _ _).trans (hfin _ ?_)
    norm_num [capacity] at e2 ⊢
    linarith
  · refine (fraction_small 14 (t := 1) (by norm_num) _ _).trans (hfin _ ?_)
    norm_num [capacity] at e2 ⊢
    linarith
  · refine (fraction_small 15 (t := 0.2) (by norm_num) _ _).trans (hfin _ ?_)
    norm_num [capacity] at e04 ⊢
    linarith
  · refine (fraction_small 16 (t := 0.2) (by norm_num) _ _).trans (hfin _ ?_)
    norm_num [capacity] at e04 ⊢
    linarith
  · refine (fraction_small 17 (t := 0.2) (by norm_num) _ _).trans (hfin _ ?_)
    norm_num [capacity] at e04 ⊢
    linarith
  · refine (fraction_small 18 (t := 0.2) (by norm_num) _ _).trans (hfin _ ?_)
    norm_num [capacity] at e04 ⊢
    linarith

/-! ## From above -/

theorem varLen_two {g : Nat} (h : g < 2 ^ 26) : 2 ^ 14 * varLen g ≤ 2 ^ 14 * 2 + g := by
  by_cases h1 : g < 2 ^ 14
  · have := varLen_le (n := g) (k := 2) (by norm_num) (by norm_num at h1 ⊢; omega)
    omega
  · by_cases h2 : g < 2 ^ 21
    · have := varLen_le (n := g) (k := 3) (by norm_num) (by norm_num at h2 ⊢; omega)
      omega
    · have := varLen_le (n := g) (k := 4) (by norm_num) (by norm_num at h ⊢; omega)
      omega

theorem gapsSize_le_split : ∀ (L : List Nat) (prev : Nat), (prev :: L).Pairwise (· ≤ ·) →
    (∀ x ∈ L, x < 2 ^ 32) →
    2 ^ 14 * gapsSize prev L ≤ 2 ^ 14 * (2 * L.length + 3 * (L.filter (2 ^ 26 ≤ ·)).length) +
      (2 ^ 26 - prev) := by
  intro L
  induction L with
  | nil => intro prev _ _; simp [gapsSize]
  | cons c cs ih =>
    intro prev hp hlt
    have hc : c < 2 ^ 32 := hlt c (by simp)
    have hle : prev ≤ c := (List.pairwise_cons.1 hp).1 c (by simp)
    have h1 := ih c (List.pairwise_cons.1 hp).2 fun x hx => hlt x (by simp [hx])
    rw [gapsSize, List.length_cons, List.filter_cons]
    by_cases h : 2 ^ 26 ≤ c
    · rw [if_pos (by simpa using h), List.length_cons]
      have := varLen_five (g := c - prev) (by omega)
      omega
    · rw [if_neg (by simpa using h)]
      have := varLen_two (g := c - prev) (by omega)
      omega

/-- The encoded size from above. -/
theorem encSize_le_split {C : Finset Nat} (hC : ∀ x ∈ C, x < 2 ^ 32) :
    encSize C ≤ 2 * C.card + 4096 + 3 * (C.filter (2 ^ 26 ≤ ·)).card := by
  have h := gapsSize_le_split (C.sort (· ≤ ·)) 0
    (List.pairwise_cons.2 ⟨fun _ _ => Nat.zero_le _, Finset.pairwise_sort C (· ≤ ·)⟩)
    (fun x hx => hC x ((Finset.mem_sort _).1 hx))
  rw [Finset.length_sort] at h
  have e : ((C.sort (· ≤ ·)).filter (2 ^ 26 ≤ ·)).length = (C.filter (2 ^ 26 ≤ ·)).card := by
    rw [← List.toFinset_card_of_nodup ((Finset.sort_nodup C (· ≤ ·)).filter _)]
    congr 1
    ext x
    simp
  rw [e] at h
  rw [encSize]
  omega

/-- The number of values whose codes contain a rank. -/
def nFlagged (p : Nat) {n : Nat} (h : Fin n → Fin (2 ^ 64)) : Nat :=
  (Finset.univ.filter fun i => (h i : Nat) / 2 ^ 39 % 2 ^ (25 - p) = 0).card

theorem high_codes (p : Nat) {n : Nat} (h : Fin n → Fin (2 ^ 64)) :
    ((codes p (hashSet 64 h)).filter (2 ^ 26 ≤ ·)).card ≤ nFlagged p h := by
  classical
  refine (Finset.card_le_card ?_).trans (Finset.card_image_le (f := fun i => code p (h i : Nat)))
  intro c hc
  rw [Finset.mem_filter] at hc
  obtain ⟨hc, hc2⟩ := hc
  obtain ⟨y, hy, rfl⟩ := Finset.mem_image.1 hc
  obtain ⟨i, -, rfl⟩ := Finset.mem_image.1 hy
  rw [Nat.mod_eq_of_lt (h i).isLt] at hc2 ⊢
  refine Finset.mem_image.2 ⟨i, Finset.mem_filter.2 ⟨Finset.mem_univ _, ?_⟩, rfl⟩
  by_contra hf
  unfold code at hc2
  simp only [if_neg hf] at hc2
  have := (h i).isLt
  omega

theorem card_flagged {p : Nat} (hp : p ≤ 25) :
    (Finset.univ.filter fun x : Fin (2 ^ 64) => (x : Nat) / 2 ^ 39 % 2 ^ (25 - p) = 0).card ≤
      2 ^ p * 2 ^ 39 := by
  classical
  have e : ((Finset.range (2 ^ p)).image (· * 2 ^ (25 - p))).card ≤ 2 ^ p := by
    refine Finset.card_image_le.trans ?_
    rw [Finset.card_range]
  refine (Finset.card_le_card ?_).trans
    ((card_prefix_in ((Finset.range (2 ^ p)).image (· * 2 ^ (25 - p)))).trans (Nat.mul_le_mul_right _ e))
  intro x hx
  rw [Finset.mem_filter] at hx ⊢
  refine ⟨Finset.mem_univ _, Finset.mem_image.2 ⟨(x : Nat) / 2 ^ 39 / 2 ^ (25 - p), ?_, ?_⟩⟩
  · rw [Finset.mem_range, Nat.div_lt_iff_lt_mul (by positivity), ← pow_add, Nat.add_sub_cancel' hp]
    have := x.isLt
    omega
  · exact Nat.div_mul_cancel (Nat.dvd_of_mod_eq_zero hx.2)

theorem nFlagged_cons (p : Nat) {n : Nat} (x : Fin (2 ^ 64)) (h : Fin n → Fin (2 ^ 64)) :
    nFlagged p (Fin.cons x h : Fin (n + 1) → Fin (2 ^ 64)) =
      (if (x : Nat) / 2 ^ 39 % 2 ^ (25 - p) = 0 then 1 else 0) + nFlagged p h := by
  rw [nFlagged, nFlagged, Finset.card_filter, Finset.card_filter, Fin.sum_univ_succ]
  simp only [Fin.cons_zero, Fin.cons_succ]

theorem mgf_flagged {p : Nat} (hp : p ≤ 25) {t : ℝ} (ht : 0 ≤ t) (n : Nat) :
    mean (fun h : Fin n → Fin (2 ^ 64) => Real.exp (t * nFlagged p h)) ≤
      Real.exp ((Real.exp t - 1) / 2 ^ (25 - p) * n) := by
  have hK : 0 ≤ Real.exp t - 1 := by have := Real.one_le_exp ht; linarith
  induction n with
  | zero =>
    have : ∀ h : Fin 0 → Fin (2 ^ 64), nFlagged p h = 0 := by intro h; simp [nFlagged]
    simp only [this]
    rw [mean_const]
    simp
  | succ n ih =>
    rw [mean_succ]
    have step : ∀ h : Fin n → Fin (2 ^ 64),
        mean1 (fun x => Real.exp (t * nFlagged p (Fin.cons x h : Fin (n + 1) → Fin (2 ^ 64)))) ≤
          Real.exp ((Real.exp t - 1) / 2 ^ (25 - p)) * Real.exp (t * nFlagged p h) := by
      intro h
      have h1 : ∀ x : Fin (2 ^ 64), Real.exp (t * nFlagged p (Fin.cons x h : Fin (n + 1) → Fin (2 ^ 64))) =
          Real.exp (t * nFlagged p h) *
            (1 + (Real.exp t - 1) * (if (x : Nat) / 2 ^ 39 % 2 ^ (25 - p) = 0 then 1 else 0)) := by
        intro x
        rw [nFlagged_cons]
        split_ifs
        · push_cast
          rw [mul_add, Real.exp_add]
          ring_nf
        · simp
      unfold mean1
      rw [Finset.sum_congr rfl fun x _ => h1 x, ← Finset.mul_sum, Finset.sum_add_distrib, ← Finset.mul_sum,
        Finset.sum_const, Finset.card_univ, Fintype.card_fin, nsmul_eq_mul, mul_one, Finset.sum_boole]
      have h2 := (Nat.cast_le (α := ℝ)).2 (card_flagged hp)
      have e : ((2 ^ p * 2 ^ 39 : ℕ) : ℝ) = 2 ^ 64 * (1 / 2 ^ (25 - p)) := by
        rw [eq_comm, mul_one_div, div_eq_iff (by positivity)]
        push_cast
        rw [mul_assoc, mul_comm, mul_assoc, ← pow_add, Nat.sub_add_cancel hp]
        norm_num
      rw [e] at h2
      have h3 := Real.add_one_le_exp ((Real.exp t - 1) / 2 ^ (25 - p))
      have h4 : (((2 ^ 64 : ℕ) : ℝ) + (Real.exp t - 1) *
          ((Finset.univ.filter fun x : Fin (2 ^ 64) => (x : Nat) / 2 ^ 39 % 2 ^ (25 - p) = 0).card : ℝ)) / 2 ^ 64 ≤
          Real.exp ((Real.exp t - 1) / 2 ^ (25 - p)) := by
        rw [div_le_iff₀ (by positivity)]
        have h5 := mul_le_mul_of_nonneg_left h2 hK
        have h6 := mul_le_mul_of_nonneg_right h3 (show (0 : ℝ) ≤ 2 ^ 64 by positivity)
        have e2 : (Real.exp t - 1) * (2 ^ 64 * (1 / 2 ^ (25 - p))) =
          (Real.exp t - 1) / 2 ^ (25 - p) * 2 ^ 64 := by ring
        have e3 : ((2 ^ 64 : ℕ) : ℝ) = 2 ^ 64 := by norm_num
        rw [e3]
        linarith
      rw [mul_div_assoc, mul_comm]
      exact mul_le_mul_of_nonneg_right h4 (Real.exp_pos _).le
    refine (mean_mono step).trans ?_
    rw [mean_mul]
    refine (mul_le_mul_of_nonneg_left ih (Real.exp_pos _).le).trans (le_of_eq ?_)
    rw [← Real.exp_add]
    congr 1
    push_cast
    ring

/-- The probability that `n` values do not fit. -/
theorem fraction_already_dense {p : Nat} (h2 : p ≤ 18) {n : Nat} (hn : 204 * n + 420000 ≤ 100 * capacity p) :
    fraction (fun h : Fin n → Fin (2 ^ 64) => ¬ fitsSparse p (hashSet 64 h)) ≤ 1 / 10 ^ 7 := by
  have h1 : fraction (fun h : Fin n → Fin (2 ^ 64) => ¬ fitsSparse p (hashSet 64 h)) ≤
      fraction (fun h : Fin n → Fin (2 ^ 64) => (1 / 2 : ℝ) * (0.04 / 3 * n + 104 / 3) ≤ 1 / 2 * nFlagged p h) := by
    refine fraction_mono fun h hh => mul_le_mul_of_nonneg_left ?_ (by norm_num)
    unfold fitsSparse at hh
    have h3 := encSize_le_split (C := codes p (hashSet 64 h)) (by
      intro x hx
      obtain ⟨y, hy, rfl⟩ := Finset.mem_image.1 hx
      exact code_lt _ _ (by
        obtain ⟨i, -, rfl⟩ := Finset.mem_image.1 hy
        exact Nat.mod_lt _ (by norm_num)))
    have h4 := high_codes p h
    have h5 : (codes p (hashSet 64 h)).card ≤ n := card_codes_le p h
    have h6 : 4 * n + 10400 ≤ 300 * nFlagged p h := by omega
    have h7 := (Nat.cast_le (α := ℝ)).2 h6
    push_cast at h7
    linarith
  refine h1.trans ((markov_exp _ _).trans ?_)
  have h3 := mgf_flagged (p := p) (by omega) (t := 1 / 2) (by norm_num) n
  refine (mul_le_mul_of_nonneg_right h3 (Real.exp_pos _).le).trans ?_
  rw [← Real.exp_add]
  have e1 : Real.exp 1 ≤ 2.7182818286 := Real.exp_one_lt_d9.le
  have e1' : 2.7182818283 ≤ Real.exp 1 := Real.exp_one_gt_d9.le
  have eh : Real.exp (1 / 2) ≤ 1.65 := by
    refine (pow_le_pow_iff_left₀ (Real.exp_pos _).le (by norm_num) two_ne_zero).1 ?_
    have : Real.exp (1 / 2) ^ 2 = Real.exp 1 := by rw [← Real.exp_nat_mul]; norm_num
    rw [this]
    norm_num at e1 ⊢
    linarith
  have hd : (1 : ℝ) / 2 ^ (25 - p) ≤ 1 / 128 := by
    apply one_div_le_one_div_of_le (by norm_num)
    calc (128 : ℝ) = 2 ^ 7 := by norm_num
      _ ≤ 2 ^ (25 - p) := pow_le_pow_right₀ (by norm_num) (by omega)
  have h4 : (Real.exp (1 / 2) - 1) / 2 ^ (25 - p) ≤ 0.65 / 128 := by
    have h0 : 0 ≤ Real.exp (1 / 2) - 1 := by have := Real.one_le_exp (show (0 : ℝ) ≤ 1 / 2 by norm_num); linarith
    rw [div_eq_mul_one_div, div_eq_mul_one_div 0.65]
    exact mul_le_mul (by linarith) hd (by positivity) (by norm_num)
  have h5 : (Real.exp (1 / 2) - 1) / 2 ^ (25 - p) * n + -(1 / 2 * (0.04 / 3 * n + 104 / 3)) ≤ -17 := by
    have hn0 : (0 : ℝ) ≤ n := by positivity
    have := mul_le_mul_of_nonneg_right h4 hn0
    norm_num at this ⊢
    linarith
  refine (Real.exp_le_exp.2 h5).trans ?_
  rw [Real.exp_neg, inv_le_comm₀ (Real.exp_pos _) (by norm_num)]
  have : Real.exp 17 = Real.exp 1 ^ 17 := by
    rw [← Real.exp_nat_mul]; norm_num
  rw [this]
  refine le_trans ?_ (pow_le_pow_left₀ (by norm_num) e1' 17)
  norm_num

end HLL
