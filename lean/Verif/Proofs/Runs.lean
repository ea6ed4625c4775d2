import Verif.Props.AnyError
import Verif.Model.Evaluation

/-!
# Averages over independent runs

The numbers of all runs are one random assignment; run `r` uses the block of `count` numbers from `r * count`.
-/

namespace HLL
open Spec F64

variable {N : Nat}

/-- Quantities that depend on disjoint sets of values are independent. -/
theorem mean_indep (V : Finset (Fin N)) {f g : (Fin N → Fin (2 ^ 64)) → ℝ}
    (hf : ∀ h h', (∀ i ∈ V, h i = h' i) → f h = f h') (hg : ∀ h h', (∀ i ∉ V, h i = h' i) → g h = g h') :
    mean (fun h => f h * g h) = mean f * mean g := by
  classical
  let E : (Fin N → Fin (2 ^ 64)) ≃ ({v // v ∈ V} → Fin (2 ^ 64)) × ({v // v ∉ V} → Fin (2 ^ 64)) :=
    Equiv.piEquivPiSubtypeProd (· ∈ V) fun _ => Fin (2 ^ 64)
  let f' : ({v // v ∈ V} → Fin (2 ^ 64)) → ℝ := fun a => f (E.symm (a, fun _ => 0))
  let g' : ({v // v ∉ V} → Fin (2 ^ 64)) → ℝ := fun b => g (E.symm (fun _ => 0, b))
  have ef : ∀ h, f h = f' (E h).1 := fun h => hf _ _ fun i hi => by
    simp [E, Equiv.piEquivPiSubtypeProd, hi]
  have eg : ∀ h, g h = g' (E h).2 := fun h => hg _ _ fun i hi => by
    simp [E, Equiv.piEquivPiSubtypeProd, hi]
  have s1 : ∑ h, f h * g h = (∑ a, f' a) * ∑ b, g' b := by
    rw [Fintype.sum_equiv E _ (fun x => f' x.1 * g' x.2) fun h => by rw [ef, eg], Fintype.sum_prod_type,
      Finset.sum_mul]
    exact Finset.sum_congr rfl fun a _ => by rw [Finset.mul_sum]
  have s2 : ∑ h, f h = Fintype.card ({v // v ∉ V} → Fin (2 ^ 64)) * ∑ a, f' a := by
    rw [Fintype.sum_equiv E _ (fun x => f' x.1) ef, Fintype.sum_prod_type, Finset.mul_sum]
    exact Finset.sum_congr rfl fun a _ => by simp only [Finset.sum_const, Finset.card_univ, nsmul_eq_mul]
  have s3 : ∑ h, g h = Fintype.card ({v // v ∈ V} → Fin (2 ^ 64)) * ∑ b, g' b := by
    rw [Fintype.sum_equiv E _ (fun x => g' x.2) eg, Fintype.sum_prod_type_right, Finset.mul_sum]
    exact Finset.sum_congr rfl fun a _ => by simp only [Finset.sum_const, Finset.card_univ, nsmul_eq_mul]
  have htot : Fintype.card (Fin N → Fin (2 ^ 64)) =
      Fintype.card ({v // v ∈ V} → Fin (2 ^ 64)) * Fintype.card ({v // v ∉ V} → Fin (2 ^ 64)) := by
    rw [Fintype.card_congr E, Fintype.card_prod]
  have h0 : (0 : ℝ) < Fintype.card ({v // v ∉ V} → Fin (2 ^ 64)) := by exact_mod_cast Fintype.card_pos
  have h1 : (0 : ℝ) < Fintype.card ({v // v ∈ V} → Fin (2 ^ 64)) := by exact_mod_cast Fintype.card_pos
  unfold mean
  rw [htot, Nat.cast_mul, s1, s2, s3]
  field_simp

/-- The variance of a sum of quantities that depend on disjoint sets of values. -/
theorem variance_sum {R : Nat} {V : Nat → Finset (Fin N)} {f : Nat → (Fin N → Fin (2 ^ 64)) → ℝ} {b : ℝ}
    (hV : ∀ r s, r ≠ s → Disjoint (V r) (V s)) (hf : ∀ r h h', (∀ i ∈ V r, h i = h' i) → f r h = f r h')
    (hb : ∀ r < R, mean (fun h => f r h ^ 2) ≤ b) :
    mean (fun h => (∑ r ∈ Finset.range R, f r h - ∑ r ∈ Finset.range R, mean (f r)) ^ 2) ≤ R * b := by
  have e1 : ∀ h, (∑ r ∈ Finset.range R, f r h - ∑ r ∈ Finset.range R, mean (f r)) ^ 2 =
      ∑ r ∈ Finset.range R, ∑ s ∈ Finset.range R, (f r h - mean (f r)) * (f s h - mean (f s)) := by
    intro h
    rw [← Finset.sum_sub_distrib, sq, Finset.sum_mul_sum]
  simp only [e1]
  rw [mean_sum]
  simp only [mean_sum]
  have e2 : ∀ r s, r ≠ s → mean (fun h => (f r h - mean (f r)) * (f s h - mean (f s))) = 0 := by
    intro r s hrs
    rw [mean_indep (V r) (fun h h' e => by rw [hf r h h' e]) (fun h h' e => by
      rw [hf s h h' fun i hi => e i fun hi' => Finset.disjoint_left.1 (hV r s hrs) hi' hi]), mean_sub, mean_const,
      sub_self, zero_mul]
  have e3 : ∀ r ∈ Finset.range R, ∑ s ∈ Finset.range R,
      mean (fun h => (f r h - mean (f r)) * (f s h - mean (f s))) ≤ b := by
    intro r hr
    rw [Finset.sum_eq_single_of_mem r hr fun s _ hs => e2 r s hs.symm]
    refine le_trans (le_of_eq_of_le ?_ (sub_le_self _ (sq_nonneg (mean (f r))))) (hb r (Finset.mem_range.1 hr))
    have : ∀ h, (f r h - mean (f r)) * (f r h - mean (f r)) =
        f r h ^ 2 - (2 * mean (f r) * f r h - mean (f r) ^ 2) := fun h => by ring
    simp only [this]
    rw [mean_sub, mean_sub, mean_mul, mean_const]
    ring
  calc _ ≤ ∑ r ∈ Finset.range R, b := Finset.sum_le_sum e3
    _ = R * b := by simp

/-- The average of `R` independent quantities with root mean square at most `b` is below `(1 + s) b`, except with
probability at most `1 / (s² R)`. -/
theorem average_tail {R : Nat} (hR : 1 ≤ R) {V : Nat → Finset (Fin N)} {f : Nat → (Fin N → Fin (2 ^ 64)) → ℝ}
    {b s : ℝ} (hV : ∀ r s, r ≠ s → Disjoint (V r) (V s))
    (hf : ∀ r h h', (∀ i ∈ V r, h i = h' i) → f r h = f r h') (hb0 : 0 < b)
    (hb : ∀ r < R, mean (fun h => f r h ^ 2) ≤ b ^ 2) (hs : 0 < s) :
    fraction (fun h => ¬ (∑ r ∈ Finset.range R, f r h) / R < (1 + s) * b) ≤ 1 / (s ^ 2 * R) := by
  have hR0 : (0 : ℝ) < R := by exact_mod_cast hR
  have hm : ∑ r ∈ Finset.range R, mean (f r) ≤ R * b := by
    calc _ ≤ ∑ r ∈ Finset.range R, b := Finset.sum_le_sum fun r hr => by
          refine le_trans (mean_mono fun h => le_abs_self _) (mean_abs_le hb0 (hb r (Finset.mem_range.1 hr)))
      _ = R * b := by simp
  have hc := chebyshev (fun h => ∑ r ∈ Finset.range R, f r h) (∑ r ∈ Finset.range R, mean (f r))
    (t := s * b * R) (by positivity)
  refine le_trans (fraction_mono fun h hh => ?_) (hc.trans ?_)
  · rw [not_lt, le_div_iff₀ hR0] at hh
    refine le_trans ?_ (le_abs_self _)
    linarith
  · rw [div_le_div_iff₀ (by positivity) (by positivity)]
    have := variance_sum hV hf hb
    calc _ ≤ R * b ^ 2 * (s ^ 2 * R) := by gcongr
      _ = _ := by ring

/-! ## Runs with `count` numbers each -/

variable {R count t : Nat}

/-- The first `t` numbers of run `r`. -/
def block (R count t r : Nat) : Finset (Fin (R * count)) :=
  Finset.univ.filter fun i => r * count ≤ i.1 ∧ i.1 < r * count + t

theorem block_disjoint (ht : t ≤ count) {r s : Nat} (h : r ≠ s) : Disjoint (block R count t r) (block R count t s) := by
  have key : ∀ r s, r < s → r * count + t ≤ s * count := by
    intro r s h
    calc r * count + t ≤ (r + 1) * count := by rw [Nat.add_mul]; omega
      _ ≤ s * count := Nat.mul_le_mul_right _ h
  rw [Finset.disjoint_left]
  intro i h1 h2
  simp only [block, Finset.mem_filter, Finset.mem_univ, true_and] at h1 h2
  rcases Nat.lt_or_gt_of_ne h with h | h
  · have := key r s h; omega
  · have := key s r h; omega

theorem block_lt (ht : t ≤ count) {r i : Nat} (hr : r < R) (hi : i < t) : r * count + i < R * count := by
  calc r * count + i < (r + 1) * count := by rw [Nat.add_mul]; omega
    _ ≤ R * count := Nat.mul_le_mul_right _ hr

theorem block_card (ht : t ≤ count) {r : Nat} (hr : r < R) : (block R count t r).card = t := by
  rw [show block R count t r = (Finset.univ : Finset (Fin t)).image fun i : Fin t =>
      (⟨r * count + i, block_lt ht hr i.2⟩ : Fin (R * count)) from ?_, Finset.card_image_of_injective,
    Finset.card_univ, Fintype.card_fin]
  · intro i j e
    simpa [Fin.ext_iff] using e
  · ext i
    simp only [block, Finset.mem_filter, Finset.mem_univ, true_and, Finset.mem_image, Fin.ext_iff]
    constructor
    · rintro ⟨h1, h2⟩
      exact ⟨⟨i.1 - r * count, by omega⟩, by simp only; omega⟩
    · rintro ⟨j, e⟩
      have := j.2
      omega

/-- The numbers of a block as a set. -/
theorem block_image (ht : t ≤ count) {r w : Nat} (hr : r < R) {h : Fin (R * count) → Fin (2 ^ 64)} {draw : Nat → Nat}
    (hd : ∀ (r' : Fin R) (i : Fin count), r'.1 = r → draw i = (h (finProdFinEquiv (r', i)) : Nat) % 2 ^ w) :
    ((block R count t r).image fun v => (h v : Nat) % 2 ^ w) = (Finset.range t).image draw := by
  ext y
  simp only [Finset.mem_image, Finset.mem_range, block, Finset.mem_filter, Finset.mem_univ, true_and]
  constructor
  · rintro ⟨v, ⟨h1, h2⟩, rfl⟩
    refine ⟨v.1 - r * count, by omega, ?_⟩
    rw [hd ⟨r, hr⟩ ⟨v.1 - r * count, by omega⟩ rfl]
    congr 3
    rw [Fin.ext_iff]
    simp only [finProdFinEquiv_apply_val, Nat.mul_comm count r]
    omega
  · rintro ⟨i, hi, rfl⟩
    refine ⟨⟨r * count + i, block_lt ht hr hi⟩, ⟨by simp, by simpa using hi⟩, ?_⟩
    rw [hd ⟨r, hr⟩ ⟨i, by omega⟩ rfl]
    congr 3
    rw [Fin.ext_iff]
    simp only [finProdFinEquiv_apply_val, Nat.mul_comm count r]
    omega

/-- Rounding down an estimate costs at most 1. -/
theorem trunc_error {y : ℚ} {t : Nat} (ht : t < 2 ^ 64) : |(Evl.truncU64 (fin y) : ℝ) - t| ≤ |(y : ℝ) - t| + 1 := by
  have hyr : ((⌊y⌋ : ℤ) : ℝ) ≤ y := by exact_mod_cast Int.floor_le y
  have hyr' : (y : ℝ) < (⌊y⌋ : ℤ) + 1 := by exact_mod_cast Int.lt_floor_add_one y
  have ht' : (t : ℝ) ≤ 2 ^ 64 - 1 := by
    have : (t : ℝ) + 1 ≤ 2 ^ 64 := by exact_mod_cast ht
    linarith
  have ht0 : (0 : ℝ) ≤ t := Nat.cast_nonneg t
  simp only [Evl.truncU64]
  generalize ⌊y⌋ = k at *
  generalize (y : ℝ) = z at *
  rcases le_or_gt k 0 with h | h
  · have e : min k.toNat (2 ^ 64 - 1) = 0 := by omega
    have hk : (k : ℝ) ≤ 0 := by exact_mod_cast h
    rw [e, Nat.cast_zero, zero_sub, abs_neg, abs_of_nonneg ht0]
    rcases abs_cases (z - t) with ⟨h1, h2⟩ | ⟨h1, h2⟩ <;> linarith
  · rcases le_or_gt k (2 ^ 64 - 1) with h' | h'
    · have e : min k.toNat (2 ^ 64 - 1) = k.toNat := by omega
      have hk : ((k.toNat : Nat) : ℝ) = k := by exact_mod_cast Int.toNat_of_nonneg h.le
      rw [e, hk]
      rcases abs_cases (z - t) with ⟨h1, h2⟩ | ⟨h1, h2⟩ <;>
        rcases abs_cases ((k : ℝ) - t) with ⟨h3, h4⟩ | ⟨h3, h4⟩ <;> linarith
    · have e : min k.toNat (2 ^ 64 - 1) = 2 ^ 64 - 1 := by omega
      have hk : (2 : ℝ) ^ 64 - 1 < k := by exact_mod_cast h'
      rw [e, show ((2 ^ 64 - 1 : Nat) : ℝ) = 2 ^ 64 - 1 by norm_num, abs_of_nonneg (by linarith),
        abs_of_nonneg (by linarith)]
      linarith

/-- The mean square of the relative error after rounding down. -/
theorem mean_trunc {n : Nat} {e y : (Fin n → Fin (2 ^ 64)) → ℝ} {t B : ℝ} (ht : 0 < t) (hB : 0 < B)
    (he : ∀ h, |e h - t| ≤ |y h - t| + 1) (hy : mean (fun h => (y h - t) ^ 2) ≤ B ^ 2) :
    mean (fun h => (|e h - t| / t) ^ 2) ≤ ((B + 1) / t) ^ 2 := by
  have h1 : ∀ h, (|e h - t| / t) ^ 2 ≤ 1 / t ^ 2 * ((y h - t) ^ 2 + (2 * |y h - t| + 1)) := by
    intro h
    rw [div_pow, div_mul_eq_mul_div, one_mul]
    gcongr
    calc |e h - t| ^ 2 ≤ (|y h - t| + 1) ^ 2 := by
          have := he h
          gcongr
      _ = _ := by rw [← sq_abs (y h - t)]; ring
  refine le_trans (mean_mono h1) ?_
  rw [mean_mul, mean_add, mean_add, mean_mul, mean_const, div_pow, div_mul_eq_mul_div, one_mul]
  have := mean_abs_le hB hy
  gcongr
  nlinarith

/-- The average over the runs of the relative errors of the estimates of a quantity that depends on the first `t` numbers of a
run. -/
theorem runs_tail {B s : ℝ} {E : Finset Nat → F64} {w : Nat} (hR : 1 ≤ R) (ht1 : 1 ≤ t) (ht : t ≤ count)
    (htc : t < 2 ^ 64) (hB : 0 < B) (hs : 0 < s) (F : Finset Nat → ℚ) (hF : ∀ S, E S = fin (F S))
    (hsq : mean (fun g : Fin t → Fin (2 ^ 64) => ((F (hashSet w g) : ℝ) - t) ^ 2) ≤ B ^ 2) :
    fraction (fun h : Fin (R * count) → Fin (2 ^ 64) => ¬ (∑ r ∈ Finset.range R,
      |(Evl.truncU64 (E ((block R count t r).image fun v => (h v : Nat) % 2 ^ w)) : ℝ) - t| / t) / R <
        (1 + s) * ((B + 1) / t)) ≤ 1 / (s ^ 2 * R) := by
  have ht0 : (0 : ℝ) < t := by exact_mod_cast ht1
  refine average_tail hR (V := block R count t) (fun r s h => block_disjoint ht h) ?_ (by positivity) ?_ hs
  · intro r h h' e
    have : ((block R count t r).image fun v => (h v : Nat) % 2 ^ w) =
        (block R count t r).image fun v => (h' v : Nat) % 2 ^ w :=
      Finset.image_congr fun i hi => by simp only [e i hi]
    rw [this]
  · intro r hr
    have hc := block_card ht hr
    refine mean_trunc (y := fun h => F ((block R count t r).image fun v => (h v : Nat) % 2 ^ w)) ht0 hB
      (fun h => by rw [hF]; exact trunc_error htc) ?_
    rw [mean_restrict (block R count t r) w fun S => ((F S : ℝ) - t) ^ 2]
    generalize (block R count t r).card = k at *
    subst hc
    exact hsq

end HLL
