import Verif.Props.SetOps
import Verif.Props.FrontPage
import Verif.Props.Compare

/-!
# C85: drawing conclusions from counts

What a program can conclude from the counts it sees, with random hashes: an interval for the number of values, which
of two sketches has more values, how similar two sets are, and the standard error of the sizes of intersections and
differences.
-/

namespace HLL
open Spec F64

variable {cfg : Cfg} {ln : F64 → F64} {ords : Nat → IterOrder × IterOrder} {p N i j k : Nat} {δ : ℝ}
  {ops : List (Op (Fin N))} {V A B : Finset (Fin N)}

/-! ## Intervals and order -/

/-- **C85**, interval: run any program, with random hashes.  If sketch `i` is a `HyperLogLogPlus` of precision `p ≥ 8`
that received exactly `n ≤ 2^59` values, and `x` is its count, then `n + 1.6 m` lies between `(x + 1.6 m)/(1 + ε)` and
`(x + 1.6 m)/(1 - ε)`, where `ε = 1.05 δ + 0.005 + 4/m`, except with probability at most `6 exp(-m δ²/4)`. -/
theorem C85_plus_interval (hln : LnSpec ln) (c : Serde.Codec (Fin N))
    (hs : ∀ h, Supported cfg c (ops.map (withHashes h)))
    (hV : (received 18 ops)[i]? = some (p, V)) (hn : V.card ≤ 2 ^ 59) (h1 : 8 ≤ p) (hδ0 : 0 < δ)
    (hδ : δ ≤ 1 / 10) :
    fraction (fun h : Fin N → Fin (2 ^ 64) => ¬ ∃ x : ℚ,
        later (Plus.api cfg ln c) ords (ops.map (withHashes h)) [.count i] = .ok [.count (fin x)] ∧
        (x + 1.6 * 2 ^ p) / (1 + (1.05 * δ + 0.005 + 4 / 2 ^ p)) ≤ (V.card : ℝ) + 1.6 * 2 ^ p ∧
        (V.card : ℝ) + 1.6 * 2 ^ p ≤ (x + 1.6 * 2 ^ p) / (1 - (1.05 * δ + 0.005 + 4 / 2 ^ p))) ≤
      6 * Real.exp (-(2 ^ p * δ ^ 2 / 4)) := by
  refine le_trans (fraction_mono fun h hh => ?_) (C62_plus_tail (ords := ords) hln c hs hV hn h1 hδ0 hδ)
  rintro ⟨x, e1, e2⟩
  refine hh ⟨x, e1, ?_⟩
  have hm : (4 : ℝ) / 2 ^ p ≤ 4 / 2 ^ 8 := by
    refine div_le_div_of_nonneg_left (by norm_num) (by positivity) (pow_le_pow_right₀ (by norm_num) h1)
  have hε0 : 0 < 1.05 * δ + 0.005 + 4 / 2 ^ p := by positivity
  have hε1 : 1.05 * δ + 0.005 + 4 / 2 ^ p < 1 := by norm_num at hm ⊢; linarith
  generalize 1.05 * δ + 0.005 + 4 / 2 ^ p = ε at *
  rw [abs_le] at e2
  rw [div_le_iff₀ (by linarith), le_div_iff₀ (by linarith)]
  constructor <;> linarith

/-- **C85**, interval for `HyperLogLogPF`, for `(1 + δ + 1.1/m + 0.001) n ≤ 2^32/30`: the same with `x - 0.11 m` in the lower
and `x + 0.11 m` in the upper bound, except with probability at most `4 exp(-m δ²/6)`. -/
theorem C85_pf_interval (hln : LnSpec ln) (c : Serde.Codec (Fin N))
    (hs : ∀ h, Supported cfg c (ops.map (withHashes h)))
    (hV : (received 16 ops)[i]? = some (p, V)) (h1 : 8 ≤ p) (hδ0 : 0 < δ) (hδ : δ ≤ 1 / 10)
    (hn : (1 + (δ + 1.1 / 2 ^ p + 0.001)) * V.card ≤ 2 ^ 32 / 30) :
    fraction (fun h : Fin N → Fin (2 ^ 64) => ¬ ∃ x : ℚ,
        later (PF.api cfg ln c) ords (ops.map (withHashes h)) [.count i] = .ok [.count (fin x)] ∧
        (x - 0.11 * 2 ^ p + 1.6 * 2 ^ p) / (1 + (1.05 * δ + 0.005 + 4 / 2 ^ p)) ≤ (V.card : ℝ) + 1.6 * 2 ^ p ∧
        (V.card : ℝ) + 1.6 * 2 ^ p ≤
          (x + 0.11 * 2 ^ p + 1.6 * 2 ^ p) / (1 - (1.05 * δ + 0.005 + 4 / 2 ^ p))) ≤
      4 * Real.exp (-(2 ^ p * δ ^ 2 / 6)) := by
  refine le_trans (fraction_mono fun h hh => ?_) (C62_pf_tail (ords := ords) hln c hs hV h1 hδ0 hδ hn)
  rintro ⟨x, e1, e2⟩
  refine hh ⟨x, e1, ?_⟩
  have hm : (4 : ℝ) / 2 ^ p ≤ 4 / 2 ^ 8 := by
    refine div_le_div_of_nonneg_left (by norm_num) (by positivity) (pow_le_pow_right₀ (by norm_num) h1)
  have hε0 : 0 < 1.05 * δ + 0.005 + 4 / 2 ^ p := by positivity
  have hε1 : 1.05 * δ + 0.005 + 4 / 2 ^ p < 1 := by norm_num at hm ⊢; linarith
  have e3 : |(x : ℝ) - V.card| ≤ (1.05 * δ + 0.005 + 4 / 2 ^ p) * (V.card + 1.6 * 2 ^ p) + 0.11 * 2 ^ p := by
    refine e2.trans (add_le_add le_rfl ?_)
    split
    · positivity
    · exact le_rfl
  generalize 1.05 * δ + 0.005 + 4 / 2 ^ p = ε at *
  rw [abs_le] at e3
  rw [div_le_iff₀ (by linarith), le_div_iff₀ (by linarith)]
  constructor <;> linarith

/-- **C85**, order: run any program, with random hashes.  If sketches `i` and `j` are `HyperLogLogPlus` of precision
`p ≥ 8` and received exactly the values `A` and `B`, and `(1 + ε) (|A| + 1.6 m) < (1 - ε) (|B| + 1.6 m)`, where
`ε = 1.05 δ + 0.005 + 4/m`, then the count of `i` is less than that of `j`, except with probability at most
`12 exp(-m δ²/4)`. -/
theorem C85_plus_order (hln : LnSpec ln) (c : Serde.Codec (Fin N))
    (hs : ∀ h, Supported cfg c (ops.map (withHashes h)))
    (hA : (received 18 ops)[i]? = some (p, A)) (hB : (received 18 ops)[j]? = some (p, B)) (hn : B.card ≤ 2 ^ 59)
    (h1 : 8 ≤ p) (hδ0 : 0 < δ) (hδ : δ ≤ 1 / 10)
    (hAB : (1 + (1.05 * δ + 0.005 + 4 / 2 ^ p)) * (A.card + 1.6 * 2 ^ p) <
      (1 - (1.05 * δ + 0.005 + 4 / 2 ^ p)) * (B.card + 1.6 * 2 ^ p)) :
    fraction (fun h : Fin N → Fin (2 ^ 64) => ¬ ∃ x y : ℚ,
        later (Plus.api cfg ln c) ords (ops.map (withHashes h)) [.count i] = .ok [.count (fin x)] ∧
        later (Plus.api cfg ln c) ords (ops.map (withHashes h)) [.count j] = .ok [.count (fin y)] ∧ x < y) ≤
      12 * Real.exp (-(2 ^ p * δ ^ 2 / 4)) := by
  have hε0 : 0 < 1.05 * δ + 0.005 + 4 / 2 ^ p := by positivity
  have hA' : A.card ≤ 2 ^ 59 := by
    have h2 : (A.card : ℝ) ≤ B.card := by
      generalize 1.05 * δ + 0.005 + 4 / 2 ^ p = ε at *
      have ha : (0 : ℝ) ≤ A.card + 1.6 * 2 ^ p := by positivity
      have hb : (0 : ℝ) ≤ B.card + 1.6 * 2 ^ p := by positivity
      nlinarith
    have h3 : A.card ≤ B.card := by exact_mod_cast h2
    omega
  refine le_trans (fraction_mono fun h hh => ?_) ((fraction_or _ _).trans
    ((add_le_add (C62_plus_tail (ords := ords) hln c hs hA hA' h1 hδ0 hδ)
      (C62_plus_tail (ords := ords) hln c hs hB hn h1 hδ0 hδ)).trans (le_of_eq (by ring))))
  by_contra hcon
  rw [not_or, not_not, not_not] at hcon
  obtain ⟨⟨x, x1, x2⟩, y, y1, y2⟩ := hcon
  refine hh ⟨x, y, x1, y1, ?_⟩
  rw [abs_le] at x2 y2
  have : (x : ℝ) < y := by linarith
  exact_mod_cast this

/-! ## Similarity -/

/-- The error of a quotient of two estimates. -/
theorem jaccard_error {I U x z t : ℝ} (hU : 0 < U) (hIU : I ≤ U) (hI : 0 ≤ I) (ht : t < 1)
    (hx : |x - I| ≤ 3 * (t * U)) (hz : |z - U| ≤ t * U) : |x / z - I / U| ≤ 4 * t / (1 - t) := by
  rw [abs_le] at hz
  have hz0 : (1 - t) * U ≤ z := by linarith
  have hpos : 0 < (1 - t) * U := mul_pos (by linarith) hU
  have hzp : 0 < z := hpos.trans_le hz0
  have ht0 : 0 ≤ t := by
    have := (abs_nonneg _).trans hx
    by_contra hc
    nlinarith
  have e : x / z - I / U = ((x - I) + I / U * (U - z)) / z := by field_simp; ring
  rw [e, abs_div, abs_of_pos hzp, div_le_div_iff₀ hzp (by linarith)]
  have hJ : |I / U| ≤ 1 := by
    rw [abs_of_nonneg (by positivity), div_le_one hU]; exact hIU
  have h1 : |(x - I) + I / U * (U - z)| ≤ 4 * (t * U) := by
    refine (abs_add_le _ _).trans ?_
    rw [abs_mul]
    have h2 : |U - z| ≤ t * U := by rw [abs_le]; constructor <;> linarith
    have h3 := mul_le_mul hJ h2 (abs_nonneg _) zero_le_one
    linarith
  calc |(x - I) + I / U * (U - z)| * (1 - t) ≤ 4 * (t * U) * (1 - t) :=
        mul_le_mul_of_nonneg_right h1 (by linarith)
    _ = 4 * t * ((1 - t) * U) := by ring
    _ ≤ 4 * t * z := mul_le_mul_of_nonneg_left hz0 (by linarith)

/-- **C85**, similarity: run any program, with random hashes.  If sketches `i`, `j` and `k` are `HyperLogLogPlus` of
precision `p ≥ 8` and received exactly the values `A`, `B` and `A ∪ B`, the last not empty, and `x`, `y`, `z` are their
counts, then `(x + y - z)/z` differs from the Jaccard index `|A ∩ B|/|A ∪ B|` by at most `4t/(1 - t)`, where
`t = (1.05 δ + 0.005 + 4/m) (1 + 1.6 m/|A ∪ B|)` is less than 1, except with probability at most
`18 exp(-m δ²/4)`. -/
theorem C85_plus_similarity (hln : LnSpec ln) (c : Serde.Codec (Fin N))
    (hs : ∀ h, Supported cfg c (ops.map (withHashes h)))
    (hA : (received 18 ops)[i]? = some (p, A)) (hB : (received 18 ops)[j]? = some (p, B))
    (hAB : (received 18 ops)[k]? = some (p, A ∪ B)) (hn : (A ∪ B).card ≤ 2 ^ 59) (h1 : 8 ≤ p)
    (hδ0 : 0 < δ) (hδ : δ ≤ 1 / 10) (hne : (A ∪ B).Nonempty) {t : ℝ}
    (ht : t = (1.05 * δ + 0.005 + 4 / 2 ^ p) * (1 + 1.6 * 2 ^ p / (A ∪ B).card)) (ht1 : t < 1) :
    fraction (fun h : Fin N → Fin (2 ^ 64) => ¬ ∃ x y z : ℚ,
        later (Plus.api cfg ln c) ords (ops.map (withHashes h)) [.count i, .count j, .count k] =
          .ok [.count (fin x), .count (fin y), .count (fin z)] ∧
        |((x + y - z) / z : ℝ) - (A ∩ B).card / (A ∪ B).card| ≤ 4 * t / (1 - t)) ≤
      18 * Real.exp (-(2 ^ p * δ ^ 2 / 4)) := by
  have hU : (0 : ℝ) < (A ∪ B).card := by exact_mod_cast hne.card_pos
  have htU : t * (A ∪ B).card = (1.05 * δ + 0.005 + 4 / 2 ^ p) * ((A ∪ B).card + 1.6 * 2 ^ p) := by
    rw [ht]; field_simp
  have hε : 0 < 1.05 * δ + 0.005 + 4 / 2 ^ p := by positivity
  have nA : A.card ≤ 2 ^ 59 := (Finset.card_le_card Finset.subset_union_left).trans hn
  have nB : B.card ≤ 2 ^ 59 := (Finset.card_le_card Finset.subset_union_right).trans hn
  have tail : ∀ V : Finset (Fin N), V.card ≤ 2 ^ 59 → _ := fun V hV =>
    (fraction_restrict V 64 fun S => ¬ ∃ y : ℚ, plusCount ln (Plus.biasOf cfg.search) p S = fin y ∧
      |(y : ℝ) - V.card| ≤ (1.05 * δ + 0.005 + 4 / 2 ^ p) * (V.card + 1.6 * 2 ^ p)).le.trans
      (plus_tail hln cfg.search h1 (received_le hA) hδ0 hδ hV)
  refine le_trans (fraction_mono fun h hh => ?_) ((fraction_or _ _).trans ((add_le_add ((fraction_or _ _).trans
    (add_le_add (tail A nA) (tail B nB))) (tail (A ∪ B) hn)).trans (le_of_eq (by ring))))
  by_contra hcon
  rw [not_or, not_or, not_not, not_not, not_not] at hcon
  obtain ⟨⟨⟨x, x1, x2⟩, ⟨y, y1, y2⟩⟩, ⟨z, z1, z2⟩⟩ := hcon
  apply hh
  have hc : ∀ {i : Nat} {V : Finset (Fin N)}, (received 18 ops)[i]? = some (p, V) →
      (contents 64 18 (ops.map (withHashes h)))[i]? = some (meaning 64 h (p, V)) := by
    intro i V hV
    rw [contents_meaning, List.getElem?_map, hV]; rfl
  refine ⟨x, y, z, ?_, ?_⟩
  · rw [plus_three (hs h) (hc hA) (hc hB) (hc hAB)]
    simp only [meaning]
    rw [x1, y1, z1]
  · obtain ⟨r1, _⟩ := combine_ops x2 y2 z2
    refine jaccard_error hU ?_ (by positivity) ht1 (r1.trans ?_) (by rw [htU]; exact z2)
    · exact_mod_cast Finset.card_le_card (Finset.inter_subset_left.trans Finset.subset_union_left)
    · rw [htU]
      have a1 : (A.card : ℝ) ≤ (A ∪ B).card := by exact_mod_cast Finset.card_le_card Finset.subset_union_left
      have b1 : (B.card : ℝ) ≤ (A ∪ B).card := by exact_mod_cast Finset.card_le_card Finset.subset_union_right
      have a2 := mul_le_mul_of_nonneg_left a1 hε.le
      have b2 := mul_le_mul_of_nonneg_left b1 hε.le
      linarith

/-! ## Standard errors -/

/-- The root mean square of a sum is at most the sum of the root mean squares. -/
theorem rms_add {n : Nat} (f g : (Fin n → Fin (2 ^ 64)) → ℝ) :
    √(mean fun h => (f h + g h) ^ 2) ≤ √(mean fun h => f h ^ 2) + √(mean fun h => g h ^ 2) := by
  have h0 : ∀ f : (Fin n → Fin (2 ^ 64)) → ℝ, 0 ≤ mean fun h => f h ^ 2 := fun f =>
    div_nonneg (Finset.sum_nonneg fun h _ => sq_nonneg _) (card_pos_real n).le
  have hcs : mean (fun h => f h * g h) ≤ √(mean fun h => f h ^ 2) * √(mean fun h => g h ^ 2) := by
    rw [← Real.sqrt_mul (h0 f)]
    refine Real.le_sqrt_of_sq_le ?_
    unfold mean
    rw [div_pow, div_mul_div_comm, ← sq]
    exact div_le_div_of_nonneg_right (Finset.sum_mul_sq_le_sq_mul_sq _ _ _) (by positivity)
  rw [Real.sqrt_le_iff]
  refine ⟨by positivity, ?_⟩
  rw [add_sq, Real.sq_sqrt (h0 f), Real.sq_sqrt (h0 g)]
  have e : mean (fun h => (f h + g h) ^ 2) =
      mean (fun h => f h ^ 2) + 2 * mean (fun h => f h * g h) + mean fun h => g h ^ 2 := by
    unfold mean
    rw [← mul_div_assoc, ← add_div, ← add_div, Finset.mul_sum, ← Finset.sum_add_distrib, ← Finset.sum_add_distrib]
    congr 1
    exact Finset.sum_congr rfl fun h _ => by ring
  rw [e]
  linarith

theorem rms_neg {n : Nat} (f : (Fin n → Fin (2 ^ 64)) → ℝ) :
    √(mean fun h => (-f h) ^ 2) = √(mean fun h => f h ^ 2) := by simp only [neg_sq]

/-- Three counts with root mean square errors `a`, `b`, `e`. -/
theorem plus_rms (c : Serde.Codec (Fin N)) (hs : ∀ h, Supported cfg c (ops.map (withHashes h)))
    (hA : (received 18 ops)[i]? = some (p, A)) (hB : (received 18 ops)[j]? = some (p, B))
    (hAB : (received 18 ops)[k]? = some (p, A ∪ B)) {a b e : ℝ}
    (ha : ∃ y : (Fin N → Fin (2 ^ 64)) → ℚ,
      (∀ h, later (Plus.api cfg ln c) ords (ops.map (withHashes h)) [.count i] = .ok [.count (fin (y h))]) ∧
      √(mean fun h => ((y h : ℝ) - A.card) ^ 2) ≤ a)
    (hb : ∃ y : (Fin N → Fin (2 ^ 64)) → ℚ,
      (∀ h, later (Plus.api cfg ln c) ords (ops.map (withHashes h)) [.count j] = .ok [.count (fin (y h))]) ∧
      √(mean fun h => ((y h : ℝ) - B.card) ^ 2) ≤ b)
    (he : ∃ y : (Fin N → Fin (2 ^ 64)) → ℚ,
      (∀ h, later (Plus.api cfg ln c) ords (ops.map (withHashes h)) [.count k] = .ok [.count (fin (y h))]) ∧
      √(mean fun h => ((y h : ℝ) - (A ∪ B).card) ^ 2) ≤ e) :
    ∃ x y z : (Fin N → Fin (2 ^ 64)) → ℚ,
      (∀ h, later (Plus.api cfg ln c) ords (ops.map (withHashes h)) [.count i, .count j, .count k] =
        .ok [.count (fin (x h)), .count (fin (y h)), .count (fin (z h))]) ∧
      √(mean fun h => ((x h : ℝ) + y h - z h - (A ∩ B).card) ^ 2) ≤ a + b + e ∧
      √(mean fun h => ((z h : ℝ) - y h - (A \ B).card) ^ 2) ≤ b + e := by
  obtain ⟨x, x1, x2⟩ := ha
  obtain ⟨y, y1, y2⟩ := hb
  obtain ⟨z, z1, z2⟩ := he
  have hc : ∀ {i : Nat} {V : Finset (Fin N)} (h : Fin N → Fin (2 ^ 64)), (received 18 ops)[i]? = some (p, V) →
      (contents 64 18 (ops.map (withHashes h)))[i]? = some (meaning 64 h (p, V)) := by
    intro i V h hV
    rw [contents_meaning, List.getElem?_map, hV]; rfl
  have hval : ∀ {i : Nat} {V : Finset (Fin N)} {h : Fin N → Fin (2 ^ 64)} {q : ℚ},
      (received 18 ops)[i]? = some (p, V) →
      later (Plus.api cfg ln c) ords (ops.map (withHashes h)) [.count i] = .ok [.count (fin q)] →
      plusCount ln (Plus.biasOf cfg.search) (meaning 64 h (p, V)).p (meaning 64 h (p, V)).S = fin q := by
    intro i V h q hV hl
    rw [plus_count_val (hs h) (hc h hV)] at hl
    simpa using hl
  obtain ⟨e1, e2⟩ := card_ops A B
  refine ⟨x, y, z, fun h => ?_, ?_, ?_⟩
  · rw [plus_three (hs h) (hc h hA) (hc h hB) (hc h hAB), hval hA (x1 h), hval hB (y1 h), hval hAB (z1 h)]
  · have h1 := rms_add (fun h => ((x h : ℝ) - A.card) + (y h - B.card)) fun h => -((z h : ℝ) - (A ∪ B).card)
    have h2 := rms_add (fun h => (x h : ℝ) - A.card) fun h => (y h : ℝ) - B.card
    rw [rms_neg] at h1
    have e3 : ∀ h, (x h : ℝ) + y h - z h - (A ∩ B).card =
        ((x h : ℝ) - A.card) + (y h - B.card) + -((z h : ℝ) - (A ∪ B).card) := fun h => by rw [e1]; ring
    simp only [e3]
    linarith
  · have h1 := rms_add (fun h => (z h : ℝ) - (A ∪ B).card) fun h => -((y h : ℝ) - B.card)
    rw [rms_neg] at h1
    have e3 : ∀ h, (z h : ℝ) - y h - (A \ B).card =
        ((z h : ℝ) - (A ∪ B).card) + -((y h : ℝ) - B.card) := fun h => by rw [e2]; ring
    simp only [e3]
    linarith

/-- **C85**, standard errors of set operations: run any program, with random hashes.  If sketches `i`, `j` and `k` are
`HyperLogLogPlus` of precision `p ≥ 13` and received exactly the values `A`, `B` and `A ∪ B`, then their counts are
always numbers `x`, `y`, `z`; the root mean square error of `x + y - z` as an estimate of `|A ∩ B|` is at most
`ε (|A| + |B| + |A ∪ B| + 4.8 m)`, and that of `z - y` as an estimate of `|A \ B|` at most `ε (|B| + |A ∪ B| + 3.2 m)`,
where `ε = 1.67/√m + 0.005 + 4/m`. -/
theorem C85_plus_rms (hln : LnSpec ln) (c : Serde.Codec (Fin N))
    (hs : ∀ h, Supported cfg c (ops.map (withHashes h)))
    (hA : (received 18 ops)[i]? = some (p, A)) (hB : (received 18 ops)[j]? = some (p, B))
    (hAB : (received 18 ops)[k]? = some (p, A ∪ B)) (h1 : 13 ≤ p) (hn : (A ∪ B).card ≤ 2 ^ 59) :
    ∃ x y z : (Fin N → Fin (2 ^ 64)) → ℚ,
      (∀ h, later (Plus.api cfg ln c) ords (ops.map (withHashes h)) [.count i, .count j, .count k] =
        .ok [.count (fin (x h)), .count (fin (y h)), .count (fin (z h))]) ∧
      √(mean fun h => ((x h : ℝ) + y h - z h - (A ∩ B).card) ^ 2) ≤
        (1.67 / √(2 ^ p) + 0.005 + 4 / 2 ^ p) * (A.card + B.card + (A ∪ B).card + 4.8 * 2 ^ p) ∧
      √(mean fun h => ((z h : ℝ) - y h - (A \ B).card) ^ 2) ≤
        (1.67 / √(2 ^ p) + 0.005 + 4 / 2 ^ p) * (B.card + (A ∪ B).card + 3.2 * 2 ^ p) := by
  have nA : A.card ≤ 2 ^ 59 := (Finset.card_le_card Finset.subset_union_left).trans hn
  have nB : B.card ≤ 2 ^ 59 := (Finset.card_le_card Finset.subset_union_right).trans hn
  obtain ⟨x, y, z, e1, e2, e3⟩ := plus_rms (ords := ords) c hs hA hB hAB
    (C74_plus_error_everywhere hln c hs hA h1 nA) (C74_plus_error_everywhere hln c hs hB h1 nB)
    (C74_plus_error_everywhere hln c hs hAB h1 hn)
  exact ⟨x, y, z, e1, e2.trans (le_of_eq (by ring)), e3.trans (le_of_eq (by ring))⟩

/-- **C85**, many values: for precision `p ≥ 11` and more than `24 m` values in both sets the bounds are
`ε (|A| + |B| + |A ∪ B|)` and `ε (|B| + |A ∪ B|)`, `ε = 1.07/√m + 0.00066 + 1.1/m`. -/
theorem C85_plus_rms_many (hln : LnSpec ln) (c : Serde.Codec (Fin N))
    (hs : ∀ h, Supported cfg c (ops.map (withHashes h)))
    (hA : (received 18 ops)[i]? = some (p, A)) (hB : (received 18 ops)[j]? = some (p, B))
    (hAB : (received 18 ops)[k]? = some (p, A ∪ B)) (h1 : 11 ≤ p) (hA24 : 24 * 2 ^ p < A.card)
    (hB24 : 24 * 2 ^ p < B.card) (hn : (A ∪ B).card ≤ 2 ^ 59) :
    ∃ x y z : (Fin N → Fin (2 ^ 64)) → ℚ,
      (∀ h, later (Plus.api cfg ln c) ords (ops.map (withHashes h)) [.count i, .count j, .count k] =
        .ok [.count (fin (x h)), .count (fin (y h)), .count (fin (z h))]) ∧
      √(mean fun h => ((x h : ℝ) + y h - z h - (A ∩ B).card) ^ 2) ≤
        (1.07 / √(2 ^ p) + (0.00066 + 1.1 / 2 ^ p)) * (A.card + B.card + (A ∪ B).card) ∧
      √(mean fun h => ((z h : ℝ) - y h - (A \ B).card) ^ 2) ≤
        (1.07 / √(2 ^ p) + (0.00066 + 1.1 / 2 ^ p)) * (B.card + (A ∪ B).card) := by
  have lA : A.card ≤ (A ∪ B).card := Finset.card_le_card Finset.subset_union_left
  have lB : B.card ≤ (A ∪ B).card := Finset.card_le_card Finset.subset_union_right
  have key := fun {i : Nat} {V : Finset (Fin N)} (hV : (received 18 ops)[i]? = some (p, V)) h24 hn =>
    C77_plus_standard_error (ords := ords) hln c hs hV h1 h24 hn
  obtain ⟨x, y, z, e1, e2, e3⟩ := plus_rms (ords := ords) c hs hA hB hAB
    (by obtain ⟨y, y1, _, y2⟩ := key hA hA24 (lA.trans hn); exact ⟨y, y1, y2⟩)
    (by obtain ⟨y, y1, _, y2⟩ := key hB hB24 (lB.trans hn); exact ⟨y, y1, y2⟩)
    (by obtain ⟨y, y1, _, y2⟩ := key hAB (hA24.trans_le lA) hn; exact ⟨y, y1, y2⟩)
  exact ⟨x, y, z, e1, e2.trans (le_of_eq (by ring)), e3.trans (le_of_eq (by ring))⟩

/-- **C85**, few values: for all precisions, if neither set is empty and the union is small enough to be sparse for all
hashes, the bounds are `ε (|A| + |B| + |A ∪ B|)` and `ε (|B| + |A ∪ B|)`, `ε = 2^-12 + 1.19 |A ∪ B|/2^25`. -/
theorem C85_plus_rms_few (hln : LnSpec ln) (c : Serde.Codec (Fin N))
    (hs : ∀ h, Supported cfg c (ops.map (withHashes h)))
    (hA : (received 18 ops)[i]? = some (p, A)) (hB : (received 18 ops)[j]? = some (p, B))
    (hAB : (received 18 ops)[k]? = some (p, A ∪ B)) (hA0 : A.Nonempty) (hB0 : B.Nonempty)
    (hn : 5 * (A ∪ B).card ≤ 4 * 2 ^ p / 5 ∨ 4 * (A ∪ B).card + 15 ≤ 4 * 2 ^ p / 5 ∨
      3 * (A ∪ B).card + 2047 ≤ 4 * 2 ^ p / 5) :
    ∃ x y z : (Fin N → Fin (2 ^ 64)) → ℚ,
      (∀ h, later (Plus.api cfg ln c) ords (ops.map (withHashes h)) [.count i, .count j, .count k] =
        .ok [.count (fin (x h)), .count (fin (y h)), .count (fin (z h))]) ∧
      √(mean fun h => ((x h : ℝ) + y h - z h - (A ∩ B).card) ^ 2) ≤
        (1 / 2 ^ 12 + 1.19 * (A ∪ B).card / 2 ^ 25) * (A.card + B.card + (A ∪ B).card) ∧
      √(mean fun h => ((z h : ℝ) - y h - (A \ B).card) ^ 2) ≤
        (1 / 2 ^ 12 + 1.19 * (A ∪ B).card / 2 ^ 25) * (B.card + (A ∪ B).card) := by
  have lA : A.card ≤ (A ∪ B).card := Finset.card_le_card Finset.subset_union_left
  have lB : B.card ≤ (A ∪ B).card := Finset.card_le_card Finset.subset_union_right
  have h4 := received_ge hA
  have key : ∀ {i : Nat} {V : Finset (Fin N)}, (received 18 ops)[i]? = some (p, V) → V.Nonempty →
      V.card ≤ (A ∪ B).card → ∃ y : (Fin N → Fin (2 ^ 64)) → ℚ,
      (∀ h, later (Plus.api cfg ln c) ords (ops.map (withHashes h)) [.count i] = .ok [.count (fin (y h))]) ∧
      √(mean fun h => ((y h : ℝ) - V.card) ^ 2) ≤ (1 / 2 ^ 12 + 1.19 * (A ∪ B).card / 2 ^ 25) * V.card := by
    intro i V hV h0 hle
    obtain ⟨y, y1, y2⟩ := C79_plus_few_values (ords := ords) hln c hs hV h4 h0.card_pos (by omega)
    refine ⟨y, y1, y2.trans ?_⟩
    gcongr
  obtain ⟨x, y, z, e1, e2, e3⟩ := plus_rms (ords := ords) c hs hA hB hAB (key hA hA0 lA) (key hB hB0 lB)
    (key hAB (hA0.mono Finset.subset_union_left) le_rfl)
  exact ⟨x, y, z, e1, e2.trans (le_of_eq (by ring)), e3.trans (le_of_eq (by ring))⟩

/-! ## Instances -/

/-- Two sketches with `2^14` registers have 400000 values each, half of them shared.  The size of the intersection,
200000, is computed with a standard error of at most 12800, and the similarity, 1/3, to within 0.27 except with
probability below 0.001. -/
example (hln : LnSpec ln) :
    (∃ x y z : (Fin (3 * 200000) → Fin (2 ^ 64)) → ℚ,
      (∀ h, later (Plus.api Cfg.debug64 ln (noCodec _)) ords ((threeSets 200000).map (withHashes h))
        [.count 0, .count 1, .count 2] = .ok [.count (fin (x h)), .count (fin (y h)), .count (fin (z h))]) ∧
      √(mean fun h => ((x h : ℝ) + y h - z h - (200000 : ℕ)) ^ 2) ≤ 12800) ∧
    fraction (fun h : Fin (3 * 200000) → Fin (2 ^ 64) => ¬ ∃ x y z : ℚ,
      later (Plus.api Cfg.debug64 ln (noCodec _)) ords ((threeSets 200000).map (withHashes h))
        [.count 0, .count 1, .count 2] = .ok [.count (fin x), .count (fin y), .count (fin z)] ∧
      |((x + y - z) / z : ℝ) - (200000 : ℕ) / (3 * 200000 : ℕ)| ≤ 0.27) ≤ 0.001 := by
  obtain ⟨c1, c2, c3, c4⟩ := card_threeSets 200000
  have hr := received_threeSets 200000 (maxP := 18) (by norm_num)
  have h14 : √((2 : ℝ) ^ 14) = 128 := by
    rw [show (2 : ℝ) ^ 14 = 128 ^ 2 by norm_num, Real.sqrt_sq (by norm_num)]
  constructor
  · obtain ⟨x, y, z, e1, e2, _⟩ := C85_plus_rms_many (ords := ords) (cfg := Cfg.debug64) (N := 3 * 200000)
      (ops := threeSets 200000) (i := 0) (j := 1) (k := 2) (p := 14) (A := lowSet 200000)
      (B := highSet 200000) hln (noCodec _) (fun h => supported64 rfl _ (threeSets_reload 200000 h))
      (by rw [hr]; rfl) (by rw [hr]; rfl) (by rw [hr]; rfl) (by norm_num) (by rw [c1]; norm_num)
      (by rw [c2]; norm_num) (by rw [c4]; norm_num)
    rw [c1, c2, c3, c4, h14] at e2
    exact ⟨x, y, z, e1, e2.trans (by norm_num)⟩
  · have h := C85_plus_similarity (ords := ords) (cfg := Cfg.debug64) (N := 3 * 200000)
      (ops := threeSets 200000) (δ := 0.05) (i := 0) (j := 1) (k := 2) (p := 14) (A := lowSet 200000)
      (B := highSet 200000) hln (noCodec _)
      (fun h => supported64 rfl _ (threeSets_reload 200000 h)) (by rw [hr]; rfl) (by rw [hr]; rfl)
      (by rw [hr]; rfl) (by rw [c4]; norm_num) (by norm_num) (by norm_num) (by norm_num)
      (Finset.card_pos.1 (by rw [c4]; norm_num)) rfl (by rw [c4]; norm_num)
    rw [c3, c4] at h
    refine le_trans (fraction_mono fun g hg => ?_) (h.trans ?_)
    · rintro ⟨x, y, z, e1, e2⟩
      refine hg ⟨x, y, z, e1, e2.trans ?_⟩
      norm_num
    · have := exp_neg_le' (x := 2 ^ 14 * 0.05 ^ 2 / 4) (k := 10) (by norm_num)
      norm_num at this ⊢
      linarith

/-- The first of these sketches has 400000 values and the one for the union 600000; the count of the first is smaller,
except with probability below `10^-14`. -/
example (hln : LnSpec ln) : fraction (fun h : Fin (3 * 200000) → Fin (2 ^ 64) => ¬ ∃ x y : ℚ,
    later (Plus.api Cfg.debug64 ln (noCodec _)) ords ((threeSets 200000).map (withHashes h)) [.count 0] =
      .ok [.count (fin x)] ∧
    later (Plus.api Cfg.debug64 ln (noCodec _)) ords ((threeSets 200000).map (withHashes h)) [.count 2] =
      .ok [.count (fin y)] ∧ x < y) ≤ 1 / 10 ^ 14 := by
  obtain ⟨c1, -, -, c4⟩ := card_threeSets 200000
  have hr := received_threeSets 200000 (maxP := 18) (by norm_num)
  refine (C85_plus_order (δ := 0.1) (p := 14) (A := lowSet 200000) (B := lowSet 200000 ∪ highSet 200000) hln (noCodec _)
    (fun h => supported64 rfl _ (threeSets_reload 200000 h)) (by rw [hr]; rfl) (by rw [hr]; rfl)
    (by rw [c4]; norm_num) (by norm_num) (by norm_num) (by norm_num) (by rw [c1, c4]; norm_num)).trans ?_
  have := exp_neg_le' (x := 2 ^ 14 * 0.1 ^ 2 / 4) (k := 40) (by norm_num)
  norm_num at this ⊢
  linarith

/-- With 2000 values each, 1000 of them shared, the standard error of the size of the intersection is below 2.5. -/
example (hln : LnSpec ln) : ∃ x y z : (Fin (3 * 1000) → Fin (2 ^ 64)) → ℚ,
    (∀ h, later (Plus.api Cfg.debug64 ln (noCodec _)) ords ((threeSets 1000).map (withHashes h))
      [.count 0, .count 1, .count 2] = .ok [.count (fin (x h)), .count (fin (y h)), .count (fin (z h))]) ∧
    √(mean fun h => ((x h : ℝ) + y h - z h - (1000 : ℕ)) ^ 2) ≤ 2.5 := by
  obtain ⟨c1, c2, c3, c4⟩ := card_threeSets 1000
  have hr := received_threeSets 1000 (maxP := 18) (by norm_num)
  obtain ⟨x, y, z, e1, e2, _⟩ := C85_plus_rms_few (ords := ords) (cfg := Cfg.debug64) (N := 3 * 1000)
    (ops := threeSets 1000) (i := 0) (j := 1) (k := 2) (p := 14) (A := lowSet 1000)
    (B := highSet 1000) hln (noCodec _) (fun h => supported64 rfl _ (threeSets_reload 1000 h))
    (by rw [hr]; rfl) (by rw [hr]; rfl) (by rw [hr]; rfl) (Finset.card_pos.1 (by rw [c1]; norm_num))
    (Finset.card_pos.1 (by rw [c2]; norm_num)) (by rw [c4]; norm_num)
  rw [c1, c2, c3, c4] at e2
  exact ⟨x, y, z, e1, e2.trans (by norm_num)⟩

end HLL
