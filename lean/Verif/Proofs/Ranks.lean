import Verif.Proofs.Variance
import Mathlib.Algebra.BigOperators.Field

/-!
# The distribution of the registers

Every assignment of 64-bit hashes to `n` values is equally likely; `mean` is the average over all of
them.  The probability that a register is at most `k` is `(1 - 2^-(p+k))^n`; from this follow the exact
mean of the harmonic sum `∑ 2^-M[j]` and a bound on its variance.
-/

namespace HLL
open Spec

theorem succ_le_firstOne : ∀ {n k h : Nat}, k ≤ n → (k + 1 ≤ firstOne n h ↔ h % 2 ^ n < 2 ^ (n - k))
  | n, 0, h, _ => by
    have := firstOne_pos n h
    simp only [zero_add, Nat.sub_zero]
    exact ⟨fun _ => Nat.mod_lt _ (Nat.two_pow_pos n), fun _ => this⟩
  | n + 1, k + 1, h, hk => by
    have ih := succ_le_firstOne (n := n) (k := k) (h := h) (by omega)
    have hle : 2 ^ (n - k) ≤ 2 ^ n := Nat.pow_le_pow_right (by norm_num) (by omega)
    have hb2 := Nat.mod_two_eq_zero_or_one (h / 2 ^ n)
    simp only [firstOne, Nat.mod_pow_succ, Nat.add_sub_add_right, Nat.testBit_eq_decide_div_mod_eq,
      decide_eq_true_eq]
    split
    · rename_i hb
      rw [hb]
      constructor <;> intro h <;> omega
    · rename_i hb
      rw [hb2.resolve_right hb, mul_zero, add_zero, ← ih]
      constructor <;> intro h <;> omega

/-- The hashes in bucket `j` with rank above `k` form one bucket of precision `p + k`. -/
theorem bucket_rank_iff {w p k j h : Nat} (hk : p + k ≤ w) :
    bucket w p h = j ∧ k + 1 ≤ rank w p h ↔ bucket w (p + k) h = j * 2 ^ k := by
  have e : 2 ^ (w - p) = 2 ^ (w - (p + k)) * 2 ^ k := by rw [← pow_add]; congr 1; omega
  have e2 : w - p - k = w - (p + k) := by omega
  rw [rank, succ_le_firstOne (by omega), bucket, bucket, e2]
  have hd : 0 < 2 ^ (w - (p + k)) := Nat.two_pow_pos _
  have hk0 : 0 < 2 ^ k := Nat.two_pow_pos _
  have h1 := Nat.div_add_mod (h / 2 ^ (w - (p + k))) (2 ^ k)
  rw [Nat.div_div_eq_div_mul, ← e] at h1
  rw [← Nat.div_eq_zero_iff_lt hd, e, Nat.mod_mul_right_div_self, ← e]
  constructor
  · rintro ⟨ha, hb⟩
    rw [← h1, ha, hb, add_zero, mul_comm]
  · intro hh
    rw [hh] at h1
    have h2 : j * 2 ^ k % 2 ^ k = 0 := Nat.mul_mod_left _ _
    refine ⟨?_, by rw [hh, h2]⟩
    rw [h2, add_zero, mul_comm] at h1
    exact Nat.eq_of_mul_eq_mul_right hk0 h1

/-- A register is at most `k` iff no hash lies in the corresponding bucket of precision `p + k`. -/
theorem reg_le_iff {w p k j n : Nat} (hk : p + k ≤ w) (h : Fin n → Fin (2 ^ 64)) :
    reg w p (hashSet w h) j ≤ k ↔ ∀ i, bucket w (p + k) ((h i : Nat) % 2 ^ w) ≠ j * 2 ^ k := by
  rw [reg, Finset.sup_le_iff]
  simp only [Finset.mem_filter, hashSet, Finset.mem_image, Finset.mem_univ, true_and]
  constructor
  · intro hh i hi
    rw [← bucket_rank_iff hk] at hi
    have := hh _ ⟨⟨i, rfl⟩, hi.1⟩
    omega
  · rintro hh _ ⟨⟨i, rfl⟩, hb⟩
    have := hh i
    rw [ne_eq, ← bucket_rank_iff hk] at this
    by_contra hc
    exact this ⟨hb, by omega⟩

/-- The average of a quantity over all assignments of hashes to `n` values. -/
noncomputable def mean {n : Nat} (f : (Fin n → Fin (2 ^ 64)) → ℝ) : ℝ :=
  (∑ h, f h) / Fintype.card (Fin n → Fin (2 ^ 64))

theorem card_pos_real (n : Nat) : (0 : ℝ) < Fintype.card (Fin n → Fin (2 ^ 64)) := by
  exact_mod_cast Fintype.card_pos

theorem mean_const {n : Nat} (a : ℝ) : mean (fun _ : Fin n → Fin (2 ^ 64) => a) = a := by
  have := card_pos_real n
  rw [mean, Finset.sum_const, Finset.card_univ, nsmul_eq_mul, mul_div_cancel_left₀ _ this.ne']

theorem mean_add {n : Nat} (f g : (Fin n → Fin (2 ^ 64)) → ℝ) :
    mean (fun h => f h + g h) = mean f + mean g := by
  rw [mean, mean, mean, Finset.sum_add_distrib, add_div]

theorem mean_sub {n : Nat} (f g : (Fin n → Fin (2 ^ 64)) → ℝ) :
    mean (fun h => f h - g h) = mean f - mean g := by
  rw [mean, mean, mean, Finset.sum_sub_distrib, sub_div]

theorem mean_mul {n : Nat} (a : ℝ) (f : (Fin n → Fin (2 ^ 64)) → ℝ) :
    mean (fun h => a * f h) = a * mean f := by
  rw [mean, mean, ← Finset.mul_sum, mul_div_assoc]

theorem mean_sum {n : Nat} {ι : Type} (s : Finset ι) (f : ι → (Fin n → Fin (2 ^ 64)) → ℝ) :
    mean (fun h => ∑ i ∈ s, f i h) = ∑ i ∈ s, mean (f i) := by
  simp only [mean]
  rw [Finset.sum_comm, Finset.sum_div]

theorem mean_mono {n : Nat} {f g : (Fin n → Fin (2 ^ 64)) → ℝ} (h : ∀ x, f x ≤ g x) :
    mean f ≤ mean g := by
  unfold mean
  have := card_pos_real n
  gcongr with x
  exact h x

/-- Probability that no hash lies in a set. -/
theorem mean_avoid {n : Nat} (A : Finset (Fin (2 ^ 64))) :
    mean (fun h : Fin n → Fin (2 ^ 64) => if ∀ i, h i ∉ A then (1 : ℝ) else 0) =
      (1 - A.card / 2 ^ 64) ^ n := by
  have h3 : (Finset.univ.filter fun h : Fin n → Fin (2 ^ 64) => ∀ i, h i ∉ A) =
      Fintype.piFinset fun _ : Fin n => Aᶜ := by
    ext h
    simp [Fintype.mem_piFinset]
  have hA : A.card ≤ 2 ^ 64 := by
    have := Finset.card_le_univ A
    rwa [Fintype.card_fin] at this
  rw [mean, ← Finset.sum_filter, h3, Finset.sum_const, nsmul_eq_mul, mul_one,
    Fintype.card_piFinset_const, Finset.card_compl, Fintype.card_fun, Fintype.card_fin,
    Fintype.card_fin, Nat.cast_pow, Nat.cast_pow, ← div_pow, Nat.cast_sub hA, sub_div]
  have h3 : ((2 : ℕ) ^ 64 : ℕ) = (2 : ℝ) ^ 64 := by norm_num
  rw [h3, div_self (by positivity)]

/-- The hashes that would push register `j` above `k`. -/
def above (w p k j : Nat) : Finset (Fin (2 ^ 64)) :=
  Finset.univ.filter fun x => bucket w (p + k) ((x : Nat) % 2 ^ w) = j * 2 ^ k

theorem card_above {w p k j : Nat} (hk : p + k ≤ w) (hw : w ≤ 64) (hj : j < 2 ^ p) :
    ((above w p k j).card : ℝ) / 2 ^ 64 = 1 / 2 ^ (p + k) := by
  rw [above, card_bucket hk hw (by rw [pow_add]; exact Nat.mul_lt_mul_of_pos_right hj (Nat.two_pow_pos k))]
  rw [div_eq_div_iff (by positivity) (by positivity), one_mul]
  push_cast
  rw [← pow_add]
  congr 1; omega

theorem reg_le_iff' {w p k j n : Nat} (hk : p + k ≤ w) (h : Fin n → Fin (2 ^ 64)) :
    reg w p (hashSet w h) j ≤ k ↔ ∀ i, h i ∉ above w p k j := by
  rw [reg_le_iff hk]
  simp [above]

/-- **The distribution of a register.** -/
theorem mean_reg_le {w p k j : Nat} (n : Nat) (hk : p + k ≤ w) (hw : w ≤ 64) (hj : j < 2 ^ p) :
    mean (fun h : Fin n → Fin (2 ^ 64) => if reg w p (hashSet w h) j ≤ k then (1 : ℝ) else 0) =
      (1 - 1 / 2 ^ (p + k)) ^ n := by
  rw [← card_above hk hw hj, ← mean_avoid]
  congr 1
  funext h
  simp only [reg_le_iff' hk]

/-- Two registers are negatively correlated. -/
theorem mean_reg_le_two {w p k l i j : Nat} (n : Nat) (hk : p + k ≤ w) (hl : p + l ≤ w) (hw : w ≤ 64)
    (hi : i < 2 ^ p) (hj : j < 2 ^ p) (hij : i ≠ j) :
    mean (fun h : Fin n → Fin (2 ^ 64) => (if reg w p (hashSet w h) i ≤ k then (1 : ℝ) else 0) *
        if reg w p (hashSet w h) j ≤ l then (1 : ℝ) else 0) =
      (1 - (1 / 2 ^ (p + k) + 1 / 2 ^ (p + l))) ^ n := by
  have hd : Disjoint (above w p k i) (above w p l j) := by
    rw [above, above, Finset.disjoint_filter]
    intro x _ h1 h2
    rw [← bucket_rank_iff hk] at h1
    rw [← bucket_rank_iff hl] at h2
    exact hij (h1.1.symm.trans h2.1)
  rw [← card_above hk hw hi, ← card_above hl hw hj, ← add_div, ← Nat.cast_add,
    ← Finset.card_union_of_disjoint hd, ← mean_avoid]
  congr 1
  funext h
  simp only [reg_le_iff' hk, reg_le_iff' hl, Finset.mem_union, not_or, forall_and]
  by_cases h1 : ∀ x, h x ∉ above w p k i
  · rw [if_pos h1, one_mul]
    exact if_congr (iff_and_self.2 fun _ => h1) rfl rfl
  · rw [if_neg h1, zero_mul, if_neg (fun hh => h1 hh.1)]

/-- `a^-M` as a combination of the events `M ≤ k`. -/
theorem pow_eq_sum (a : ℝ) {R M : Nat} (h : M ≤ R) :
    a ^ M = a ^ R + ∑ k ∈ Finset.range R, (a ^ k - a ^ (k + 1)) * if M ≤ k then (1 : ℝ) else 0 := by
  induction R with
  | zero => simp [Nat.le_zero.1 h]
  | succ R ih =>
    rw [Finset.sum_range_succ]
    rcases Nat.lt_or_ge R M with hM | hM
    · have : M = R + 1 := by omega
      subst this
      rw [if_neg (by omega), mul_zero, add_zero, Finset.sum_eq_zero, add_zero]
      intro k hk
      rw [Finset.mem_range] at hk
      rw [if_neg (by omega), mul_zero]
    · rw [if_pos hM, ih hM]; ring

/-- The mean of `a^M` for a register `M`. -/
noncomputable def moment (w p n : Nat) (a : ℝ) : ℝ :=
  a ^ (w - p + 1) +
    ∑ k ∈ Finset.range (w - p + 1), (a ^ k - a ^ (k + 1)) * (1 - 1 / 2 ^ (p + k)) ^ n

theorem mean_pow {w p j : Nat} (n : Nat) (hp : p ≤ w) (hw : w ≤ 64) (hj : j < 2 ^ p) (a : ℝ) :
    mean (fun h : Fin n → Fin (2 ^ 64) => a ^ reg w p (hashSet w h) j) = moment w p n a := by
  have h1 : (fun h : Fin n → Fin (2 ^ 64) => a ^ reg w p (hashSet w h) j) = fun h =>
      a ^ (w - p + 1) + ∑ k ∈ Finset.range (w - p + 1), (a ^ k - a ^ (k + 1)) *
        if reg w p (hashSet w h) j ≤ k then (1 : ℝ) else 0 := by
    funext h
    exact pow_eq_sum a (reg_le _ _ _ _)
  rw [h1, mean_add, mean_const, mean_sum, moment]
  congr 1
  refine Finset.sum_congr rfl fun k hk => ?_
  rw [Finset.mem_range] at hk
  rw [mean_mul, mean_reg_le n (by omega) hw hj]

theorem mean_pow_two {w p i j : Nat} (n : Nat) (hp1 : 1 ≤ p) (hp : p ≤ w) (hw : w ≤ 64) (hi : i < 2 ^ p)
    (hj : j < 2 ^ p) (hij : i ≠ j) {a : ℝ} (h0 : 0 ≤ a) (h1 : a ≤ 1) :
    mean (fun h : Fin n → Fin (2 ^ 64) => a ^ reg w p (hashSet w h) i * a ^ reg w p (hashSet w h) j)
      ≤ moment w p n a ^ 2 := by
  set R := w - p + 1 with hR
  have e : (fun h : Fin n → Fin (2 ^ 64) =>
      a ^ reg w p (hashSet w h) i * a ^ reg w p (hashSet w h) j) = fun h =>
      a ^ R * a ^ reg w p (hashSet w h) j +
      ∑ k ∈ Finset.range R, (a ^ k - a ^ (k + 1)) *
        (a ^ R * (if reg w p (hashSet w h) i ≤ k then (1 : ℝ) else 0) +
        ∑ l ∈ Finset.range R, (a ^ l - a ^ (l + 1)) *
          ((if reg w p (hashSet w h) i ≤ k then (1 : ℝ) else 0) *
            if reg w p (hashSet w h) j ≤ l then (1 : ℝ) else 0)) := by
    funext h
    rw [pow_eq_sum a (show reg w p (hashSet w h) i ≤ R from reg_le _ _ _ _), add_mul, Finset.sum_mul]
    congr 1
    refine Finset.sum_congr rfl fun k _ => ?_
    conv_lhs => rw [pow_eq_sum a (show reg w p (hashSet w h) j ≤ R from reg_le _ _ _ _)]
    rw [mul_assoc, mul_add, Finset.mul_sum, mul_comm (a ^ R)]
    congr 2
    exact Finset.sum_congr rfl fun l _ => by ring
  rw [e, mean_add, mean_mul, mean_pow n hp hw hj, mean_sum]
  have hq : ∀ k, (0 : ℝ) ≤ 1 - 1 / 2 ^ (p + k) ∧ 1 / (2 : ℝ) ^ (p + k) ≤ 1 / 2 := by
    intro k
    have : (1 : ℝ) / 2 ^ (p + k) ≤ 1 / 2 := by
      apply one_div_le_one_div_of_le (by norm_num)
      calc (2 : ℝ) = 2 ^ 1 := by norm_num
        _ ≤ 2 ^ (p + k) := pow_le_pow_right₀ (by norm_num) (by omega)
    exact ⟨by linarith, this⟩
  have hd : ∀ k : ℕ, 0 ≤ a ^ k - a ^ (k + 1) := fun k =>
    sub_nonneg.2 (pow_le_pow_of_le_one h0 h1 (Nat.le_succ k))
  have hm : moment w p n a ^ 2 = a ^ R * moment w p n a +
      ∑ k ∈ Finset.range R, (a ^ k - a ^ (k + 1)) * ((1 - 1 / 2 ^ (p + k)) ^ n * moment w p n a) := by
    rw [sq]
    conv_lhs => enter [1]; rw [moment]
    rw [add_mul, Finset.sum_mul]
    congr 1
    exact Finset.sum_congr rfl fun k _ => by ring
  rw [hm]
  refine add_le_add le_rfl (Finset.sum_le_sum fun k hk => ?_)
  rw [Finset.mem_range] at hk
  rw [mean_mul]
  refine mul_le_mul_of_nonneg_left ?_ (hd k)
  rw [mean_add, mean_mul, mean_reg_le n (by omega) hw hi, mean_sum, moment, mul_add, ← hR,
    Finset.mul_sum, mul_comm (a ^ R)]
  refine add_le_add le_rfl (Finset.sum_le_sum fun l hl => ?_)
  rw [Finset.mem_range] at hl
  rw [mean_mul, mean_reg_le_two n (by omega) (by omega) hw hi hj hij, mul_left_comm]
  refine mul_le_mul_of_nonneg_left ?_ (hd l)
  rw [← mul_pow]
  obtain ⟨ha, hb⟩ := hq k
  obtain ⟨ha', hb'⟩ := hq l
  have hk0 : (0 : ℝ) ≤ 1 / 2 ^ (p + k) := by positivity
  have hl0 : (0 : ℝ) ≤ 1 / 2 ^ (p + l) := by positivity
  exact pow_le_pow_left₀ (by linarith) (by nlinarith) n

/-- The harmonic sum of the registers of an assignment. -/
noncomputable def harm (w p : Nat) {n : Nat} (h : Fin n → Fin (2 ^ 64)) : ℝ :=
  ∑ j ∈ Finset.range (2 ^ p), (1 / 2 : ℝ) ^ reg w p (hashSet w h) j

/-- **Mean of the harmonic sum.** -/
theorem mean_harm {w p : Nat} (n : Nat) (hp : p ≤ w) (hw : w ≤ 64) :
    mean (fun h : Fin n → Fin (2 ^ 64) => harm w p h) = 2 ^ p * moment w p n (1 / 2) := by
  simp only [harm]
  rw [mean_sum, Finset.sum_congr rfl fun j hj => mean_pow n hp hw (Finset.mem_range.1 hj) (1 / 2),
    Finset.sum_const, Finset.card_range, nsmul_eq_mul]
  push_cast
  rfl

/-- **Variance of the harmonic sum.** -/
theorem variance_harm {w p : Nat} (n : Nat) (hp1 : 1 ≤ p) (hp : p ≤ w) (hw : w ≤ 64) :
    mean (fun h : Fin n → Fin (2 ^ 64) => (harm w p h - 2 ^ p * moment w p n (1 / 2)) ^ 2) ≤
      2 ^ p * (moment w p n (1 / 4) - moment w p n (1 / 2) ^ 2) := by
  set e := moment w p n (1 / 2) with he
  have e1 : (fun h : Fin n → Fin (2 ^ 64) => (harm w p h - 2 ^ p * e) ^ 2) = fun h =>
      (∑ i ∈ Finset.range (2 ^ p), ∑ j ∈ Finset.range (2 ^ p),
        (1 / 2 : ℝ) ^ reg w p (hashSet w h) i * (1 / 2) ^ reg w p (hashSet w h) j) +
      ((2 ^ p * e) ^ 2 - (2 * (2 ^ p * e)) * harm w p h) := by
    funext h
    rw [← Finset.sum_mul_sum]
    simp only [harm]
    ring
  rw [e1, mean_add, mean_sub, mean_const, mean_mul, mean_harm n hp hw, ← he, mean_sum]
  have h2 : ∀ i ∈ Finset.range (2 ^ p), mean (fun h : Fin n → Fin (2 ^ 64) =>
      ∑ j ∈ Finset.range (2 ^ p),
        (1 / 2 : ℝ) ^ reg w p (hashSet w h) i * (1 / 2) ^ reg w p (hashSet w h) j) ≤
      moment w p n (1 / 4) + (2 ^ p - 1) * e ^ 2 := by
    intro i hi
    rw [mean_sum, ← Finset.add_sum_erase _ _ hi]
    rw [Finset.mem_range] at hi
    refine add_le_add (le_of_eq ?_) ?_
    · rw [← mean_pow n hp hw hi]
      congr 1
      funext h
      rw [← mul_pow]; norm_num
    · refine (Finset.sum_le_sum (g := fun _ => e ^ 2) fun j hj => ?_).trans (le_of_eq ?_)
      · rw [Finset.mem_erase, Finset.mem_range] at hj
        exact mean_pow_two n hp1 hp hw hi hj.2 (Ne.symm hj.1) (by norm_num) (by norm_num)
      · rw [Finset.sum_const, Finset.card_erase_of_mem (Finset.mem_range.2 hi), Finset.card_range,
          nsmul_eq_mul, Nat.cast_sub Nat.one_le_two_pow]
        push_cast
        rfl
  have h3 := Finset.sum_le_sum h2
  rw [Finset.sum_const, Finset.card_range, nsmul_eq_mul] at h3
  push_cast at h3
  refine le_trans (add_le_add h3 le_rfl) (le_of_eq ?_)
  ring

end HLL
