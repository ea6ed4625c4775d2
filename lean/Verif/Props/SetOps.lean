import Verif.Props.AllError
import Verif.Props.Worst
import Verif.Props.Small

/-!
# C75: intersections and differences computed from counts

A program that wants the size of an intersection or of a difference keeps one sketch per set and one
for the union (a clone of the first, merged with the second), and combines the three counts.  The error
of the combination is bounded here.  The counts themselves do not satisfy the inequality
`|A ∪ B| ≤ |A| + |B|`: while the sketches are sparse, the count of a disjoint union exceeds the sum
of the counts.
-/

namespace HLL
open Spec F64

variable {cfg : Cfg} {ln : F64 → F64} {ords : Nat → IterOrder × IterOrder} {p N i j k : Nat} {δ : ℝ}
  {ops : List (Op (Fin N))} {A B : Finset (Fin N)}

/-- What three counts in a row return. -/
theorem plus_three {I : Type} {c : Serde.Codec I} {ops : List (Op I)} (h : Supported cfg c ops) {x y z : Abs I}
    (hx : (contents 64 18 ops)[i]? = some x) (hy : (contents 64 18 ops)[j]? = some y)
    (hz : (contents 64 18 ops)[k]? = some z) :
    later (Plus.api cfg ln c) ords ops [.count i, .count j, .count k] =
      .ok [.count (plusCount ln (Plus.biasOf cfg.search) x.p x.S),
        .count (plusCount ln (Plus.biasOf cfg.search) y.p y.S),
        .count (plusCount ln (Plus.biasOf cfg.search) z.p z.S)] := by
  rw [(Plus.implements cfg ln c).later_ok ords (h.of_subset (by simp)
    (by intro i hi; exact ⟨i, by simpa using hi⟩))]
  simp [expectedFrom, observe, effect, hx, hy, hz]

theorem pf_three {I : Type} {c : Serde.Codec I} {ops : List (Op I)} (h : Supported cfg c ops) {x y z : Abs I}
    (hx : (contents 32 16 ops)[i]? = some x) (hy : (contents 32 16 ops)[j]? = some y)
    (hz : (contents 32 16 ops)[k]? = some z) :
    later (PF.api cfg ln c) ords ops [.count i, .count j, .count k] =
      .ok [.count (pfCount ln x.p x.S), .count (pfCount ln y.p y.S), .count (pfCount ln z.p z.S)] := by
  rw [(PF.implements cfg ln c).later_ok ords (h.of_subset (by simp)
    (by intro i hi; exact ⟨i, by simpa using hi⟩))]
  simp [expectedFrom, observe, effect, hx, hy, hz]

/-- The sizes of the three sets determine those of the intersection and the difference. -/
theorem card_ops (A B : Finset (Fin N)) :
    ((A ∩ B).card : ℝ) = A.card + B.card - (A ∪ B).card ∧
      ((A \ B).card : ℝ) = (A ∪ B).card - B.card := by
  have h1 := Finset.card_union_add_card_inter A B
  have h2 := Finset.card_sdiff_add_card A B
  have h1' : ((A ∪ B).card : ℝ) + (A ∩ B).card = A.card + B.card := by exact_mod_cast h1
  have h2' : ((A \ B).card : ℝ) + B.card = (A ∪ B).card := by exact_mod_cast h2
  constructor <;> linarith

/-- Three estimates with errors `a`, `b`, `c`. -/
theorem combine_ops {a b c x y z : ℝ} (hx : |x - A.card| ≤ a) (hy : |y - B.card| ≤ b)
    (hz : |z - (A ∪ B).card| ≤ c) :
    |x + y - z - (A ∩ B).card| ≤ a + b + c ∧ |z - y - (A \ B).card| ≤ b + c := by
  obtain ⟨e1, e2⟩ := card_ops A B
  rw [e1, e2]
  rw [abs_le] at hx hy hz
  rw [abs_le, abs_le]
  refine ⟨⟨?_, ?_⟩, ⟨?_, ?_⟩⟩ <;> linarith

/-- **C75** for `HyperLogLogPlus`: run any program, with random hashes.  If sketches `i`, `j` and `k`
have precision `p ≥ 8` and received exactly the values `A`, `B` and `A ∪ B`, then counting the three
gives numbers `x`, `y`, `z` such that `x + y - z` differs from `|A ∩ B|` by at most
`ε (|A| + |B| + |A ∪ B| + 4.8 m)` and `z - y` differs from `|A \ B|` by at most
`ε (|B| + |A ∪ B| + 3.2 m)`, where `ε = 1.05 δ + 0.005 + 4/m`, except with probability at most
`18 exp(-m δ²/4)`. -/
theorem C75_plus_set_operations (hln : LnSpec ln) (c : Serde.Codec (Fin N))
    (hs : ∀ h, Supported cfg c (ops.map (withHashes h)))
    (hA : (received 18 ops)[i]? = some (p, A)) (hB : (received 18 ops)[j]? = some (p, B))
    (hAB : (received 18 ops)[k]? = some (p, A ∪ B)) (hn : (A ∪ B).card ≤ 2 ^ 59) (h1 : 8 ≤ p)
    (hδ0 : 0 < δ) (hδ : δ ≤ 1 / 10) :
    fraction (fun h : Fin N → Fin (2 ^ 64) => ¬ ∃ x y z : ℚ,
        later (Plus.api cfg ln c) ords (ops.map (withHashes h)) [.count i, .count j, .count k] =
          .ok [.count (fin x), .count (fin y), .count (fin z)] ∧
        |(x : ℝ) + y - z - (A ∩ B).card| ≤
          (1.05 * δ + 0.005 + 4 / 2 ^ p) * (A.card + B.card + (A ∪ B).card + 4.8 * 2 ^ p) ∧
        |(z : ℝ) - y - (A \ B).card| ≤
          (1.05 * δ + 0.005 + 4 / 2 ^ p) * (B.card + (A ∪ B).card + 3.2 * 2 ^ p)) ≤
      18 * Real.exp (-(2 ^ p * δ ^ 2 / 4)) := by
  have nA : A.card ≤ 2 ^ 59 := (Finset.card_le_card Finset.subset_union_left).trans hn
  have nB : B.card ≤ 2 ^ 59 := (Finset.card_le_card Finset.subset_union_right).trans hn
  have tail : ∀ V : Finset (Fin N), V.card ≤ 2 ^ 59 → _ := fun V hV =>
    (fraction_restrict V 64 fun S => ¬ ∃ y : ℚ, plusCount ln (Plus.biasOf cfg.search) p S = fin y ∧
      |(y : ℝ) - V.card| ≤ (1.05 * δ + 0.005 + 4 / 2 ^ p) * (V.card + 1.6 * 2 ^ p)).le.trans
      (plus_tail hln cfg.search h1 (received_le hA) hδ0 hδ hV)
  refine le_trans (fraction_mono fun h hh => ?_) ((fraction_or _ _).trans ((add_le_add ((fraction_or _ _).trans
    (add_le_add (tail A nA) (tail B nB))) (tail (A ∪ B) hn)).trans (le_of_eq (by ring))))
  by_contra hcon
  rw [not_or, not_or, not_not, not_not, not_not] at hcon
  obtain ⟨⟨⟨x, x1, x2⟩, ⟨y, y1, y2⟩⟩, ⟨z, z1, z2⟩⟩ := hcon
  apply hh
  have hc : ∀ {i : Nat} {V : Finset (Fin N)}, (received 18 ops)[i]? = some (p, V) →
      (contents 64 18 (ops.map (withHashes h)))[i]? = some (meaning 64 h (p, V)) := by
    intro i V hV
    rw [contents_meaning, List.getElem?_map, hV]; rfl
  refine ⟨x, y, z, ?_, ?_⟩
  · rw [plus_three (hs h) (hc hA) (hc hB) (hc hAB)]
    simp only [meaning]
    rw [x1, y1, z1]
  · obtain ⟨r1, r2⟩ := combine_ops x2 y2 z2
    refine ⟨r1.trans (le_of_eq ?_), r2.trans (le_of_eq ?_)⟩
    · ring
    · ring

/-- **C75** for `HyperLogLogPF`: the same with precision `p ≥ 8`, for
`(1 + δ + 1.1/m + 0.001) |A ∪ B| ≤ 2^32/30`.  The errors are larger by `0.33 m` and `0.22 m`, and the
probability is at most `12 exp(-m δ²/6)`. -/
theorem C75_pf_set_operations (hln : LnSpec ln) (c : Serde.Codec (Fin N))
    (hs : ∀ h, Supported cfg c (ops.map (withHashes h)))
    (hA : (received 16 ops)[i]? = some (p, A)) (hB : (received 16 ops)[j]? = some (p, B))
    (hAB : (received 16 ops)[k]? = some (p, A ∪ B)) (h1 : 8 ≤ p) (hδ0 : 0 < δ) (hδ : δ ≤ 1 / 10)
    (hn : (1 + (δ + 1.1 / 2 ^ p + 0.001)) * (A ∪ B).card ≤ 2 ^ 32 / 30) :
    fraction (fun h : Fin N → Fin (2 ^ 64) => ¬ ∃ x y z : ℚ,
        later (PF.api cfg ln c) ords (ops.map (withHashes h)) [.count i, .count j, .count k] =
          .ok [.count (fin x), .count (fin y), .count (fin z)] ∧
        |(x : ℝ) + y - z - (A ∩ B).card| ≤
          (1.05 * δ + 0.005 + 4 / 2 ^ p) * (A.card + B.card + (A ∪ B).card + 4.8 * 2 ^ p) +
            0.33 * 2 ^ p ∧
        |(z : ℝ) - y - (A \ B).card| ≤
          (1.05 * δ + 0.005 + 4 / 2 ^ p) * (B.card + (A ∪ B).card + 3.2 * 2 ^ p) + 0.22 * 2 ^ p) ≤
      12 * Real.exp (-(2 ^ p * δ ^ 2 / 6)) := by
  have hε : 0 ≤ 1 + (δ + 1.1 / 2 ^ p + 0.001) := by positivity
  have sub : ∀ V : Finset (Fin N), V ⊆ A ∪ B →
      (1 + (δ + 1.1 / 2 ^ p + 0.001)) * (V.card : ℝ) ≤ 2 ^ 32 / 30 := by
    intro V hV
    refine le_trans (mul_le_mul_of_nonneg_left ?_ hε) hn
    exact_mod_cast Finset.card_le_card hV
  have tail : ∀ V : Finset (Fin N), V ⊆ A ∪ B →
      fraction (fun h : Fin N → Fin (2 ^ 64) => ¬ ∃ y : ℚ,
        pfCount ln p (V.image fun v => (h v : Nat) % 2 ^ 32) = fin y ∧
        |(y : ℝ) - V.card| ≤ (1.05 * δ + 0.005 + 4 / 2 ^ p) * (V.card + 1.6 * 2 ^ p) + 0.11 * 2 ^ p) ≤
        4 * Real.exp (-(2 ^ p * δ ^ 2 / 6)) := fun V hV => by
    rw [fraction_restrict V 32 fun S => ¬ ∃ y : ℚ, pfCount ln p S = fin y ∧
      |(y : ℝ) - V.card| ≤ (1.05 * δ + 0.005 + 4 / 2 ^ p) * (V.card + 1.6 * 2 ^ p) + 0.11 * 2 ^ p]
    refine le_trans (fraction_mono fun h hh => ?_)
      (pf_tail hln h1 (received_le hA) hδ0 hδ (sub V hV))
    rintro ⟨y, e1, e2⟩
    refine hh ⟨y, e1, e2.trans (add_le_add le_rfl ?_)⟩
    split
    · positivity
    · exact le_rfl
  refine le_trans (fraction_mono fun h hh => ?_) ((fraction_or _ _).trans ((add_le_add ((fraction_or _ _).trans
    (add_le_add (tail A Finset.subset_union_left) (tail B Finset.subset_union_right)))
    (tail (A ∪ B) subset_rfl)).trans (le_of_eq (by ring))))
  by_contra hcon
  rw [not_or, not_or, not_not, not_not, not_not] at hcon
  obtain ⟨⟨⟨x, x1, x2⟩, ⟨y, y1, y2⟩⟩, ⟨z, z1, z2⟩⟩ := hcon
  apply hh
  have hc : ∀ {i : Nat} {V : Finset (Fin N)}, (received 16 ops)[i]? = some (p, V) →
      (contents 32 16 (ops.map (withHashes h)))[i]? = some (meaning 32 h (p, V)) := by
    intro i V hV
    rw [contents_meaning, List.getElem?_map, hV]; rfl
  refine ⟨x, y, z, ?_, ?_⟩
  · rw [pf_three (hs h) (hc hA) (hc hB) (hc hAB)]
    simp only [meaning]
    rw [x1, y1, z1]
  · obtain ⟨r1, r2⟩ := combine_ops x2 y2 z2
    refine ⟨r1.trans (le_of_eq ?_), r2.trans (le_of_eq ?_)⟩
    · ring
    · ring

/-! ## Sums of counts -/

/-- Linear counting is superadditive: `log(1/(1-a-b)) - log(1/(1-a)) - log(1/(1-b)) ≥ ab/2`. -/
theorem log_super {a b : ℝ} (ha : 0 ≤ a) (hb : 0 ≤ b) (hab : a + b ≤ 1 / 2) :
    Real.log (1 / (1 - a)) + Real.log (1 / (1 - b)) + a * b * (7 / 8) ≤ Real.log (1 / (1 - (a + b))) := by
  have h1 : 0 < 1 - a := by linarith
  have h2 : 0 < 1 - b := by linarith
  have h3 : 0 < 1 - (a + b) := by linarith
  have hp : 0 ≤ a * b := mul_nonneg ha hb
  have hp2 : a * b ≤ 1 / 16 := by nlinarith [sq_nonneg (a - b)]
  have key : a * b * (7 / 8) ≤ Real.log ((1 - a) * (1 - b) / (1 - (a + b))) := by
    have h4 := Real.one_sub_inv_le_log_of_pos (x := (1 - a) * (1 - b) / (1 - (a + b))) (by positivity)
    refine le_trans ?_ h4
    rw [inv_div]
    have e : 1 - (1 - (a + b)) / ((1 - a) * (1 - b)) = a * b / ((1 - a) * (1 - b)) := by
      field_simp; ring
    rw [e, le_div_iff₀ (by positivity)]
    have : (1 - a) * (1 - b) ≤ 1 := by nlinarith
    nlinarith
  rw [Real.log_div (by positivity) h3.ne', Real.log_mul h1.ne' h2.ne'] at key
  rw [one_div, one_div, one_div, Real.log_inv, Real.log_inv, Real.log_inv]
  linarith

/-- The same for the computed numbers, with the `2^24` cells of the sparse representation. -/
theorem linear_super (hln : LnSpec ln) {a b : ℕ} (ha : 0 < a) (hb : 0 < b) (hab : a + b ≤ 2 ^ 18) :
    ∃ x y z : ℚ, linear ln (2 ^ 24) (2 ^ 24 - a) = fin x ∧ linear ln (2 ^ 24) (2 ^ 24 - b) = fin y ∧
      linear ln (2 ^ 24) (2 ^ 24 - (a + b)) = fin z ∧ x + y < z := by
  have approx : ∀ n : ℕ, n ≤ 2 ^ 18 → ∃ y : ℚ, linear ln (2 ^ 24) (2 ^ 24 - n) = fin y ∧
      |(y : ℝ) - 2 ^ 24 * Real.log (1 / (1 - n / 2 ^ 24))| ≤ 1 / 2 ^ 27 + (n : ℝ) / 2 ^ 38 := by
    intro n hn
    obtain ⟨y, h1, _, h2⟩ := linear_approx hln (m := 2 ^ 24) (V := 2 ^ 24 - n) (by omega) (by omega) le_rfl
    refine ⟨y, h1, ?_⟩
    have hc : ((2 ^ 24 - n : ℕ) : ℝ) = 2 ^ 24 - n := by
      rw [Nat.cast_sub (by omega)]; norm_num
    have hn' : (n : ℝ) ≤ 2 ^ 18 := by exact_mod_cast hn
    have hx : (n : ℝ) / 2 ^ 24 ≤ 1 / 64 := by
      rw [div_le_iff₀ (by positivity)]; linarith
    have hx0 : 0 ≤ (n : ℝ) / 2 ^ 24 := by positivity
    have hpos : (0 : ℝ) < 2 ^ 24 - n := by
      have : (2 : ℝ) ^ 18 < 2 ^ 24 := by norm_num
      linarith
    have e : ((2 ^ 24 : ℕ) : ℝ) / ((2 ^ 24 - n : ℕ) : ℝ) = 1 / (1 - n / 2 ^ 24) := by
      rw [hc, Nat.cast_pow, Nat.cast_ofNat]; field_simp
    rw [e, Nat.cast_pow, Nat.cast_ofNat] at h2
    have hL : Real.log (1 / (1 - n / 2 ^ 24)) ≤ 2 * (n / 2 ^ 24) := by
      have h3 : 0 < 1 - (n : ℝ) / 2 ^ 24 := by linarith
      refine (Real.log_le_sub_one_of_pos (by positivity)).trans ?_
      rw [sub_le_iff_le_add, div_le_iff₀ h3]
      nlinarith
    refine h2.trans ?_
    have e2 : (2 : ℝ) ^ 24 * Real.log (1 / (1 - n / 2 ^ 24)) / 2 ^ 39 ≤
        2 ^ 24 * (2 * (n / 2 ^ 24)) / 2 ^ 39 := by gcongr
    refine (add_le_add le_rfl e2).trans (le_of_eq ?_)
    field_simp
  obtain ⟨x, x1, x2⟩ := approx a (by omega)
  obtain ⟨y, y1, y2⟩ := approx b (by omega)
  obtain ⟨z, z1, z2⟩ := approx (a + b) hab
  refine ⟨x, y, z, x1, y1, z1, ?_⟩
  have ha' : (1 : ℝ) ≤ a := by exact_mod_cast ha
  have hb' : (1 : ℝ) ≤ b := by exact_mod_cast hb
  have hab' : (a : ℝ) + b ≤ 2 ^ 18 := by exact_mod_cast hab
  have hs := log_super (a := (a : ℝ) / 2 ^ 24) (b := b / 2 ^ 24) (by positivity) (by positivity) (by
    rw [← add_div, div_le_iff₀ (by positivity)]; norm_num at hab' ⊢; linarith)
  rw [Nat.cast_add, add_div] at z2
  have hprod : (a : ℝ) + b - 1 ≤ a * b := by nlinarith
  have e : (a : ℝ) / 2 ^ 24 * (b / 2 ^ 24) * (7 / 8) = a * b * (7 / 8) / 2 ^ 48 := by ring
  rw [e] at hs
  rw [abs_le] at x2 y2 z2
  generalize Real.log (1 / (1 - (a : ℝ) / 2 ^ 24)) = la at *
  generalize Real.log (1 / (1 - (b : ℝ) / 2 ^ 24)) = lb at *
  generalize Real.log (1 / (1 - ((a : ℝ) / 2 ^ 24 + b / 2 ^ 24))) = lc at *
  have : (x : ℝ) + y < z := by
    obtain ⟨-, x2⟩ := x2
    obtain ⟨-, y2⟩ := y2
    obtain ⟨z2, -⟩ := z2
    generalize (a : ℝ) * b = ab at *
    norm_num only at *
    linarith
  exact_mod_cast this

/-- **C75**, counts are not subadditive: let sketches `i`, `j` and `k` be in any program such that the
hashes in `k` are those in `i` and those in `j`.  If `i` and `j` are not empty and have no sparse code in
common, and `k` is still sparse, then the count of `k` exceeds the sum of the counts of `i` and `j`. -/
theorem C75_plus_superadditive {I : Type} {c : Serde.Codec I} {ops : List (Op I)} (hln : LnSpec ln)
    (hs : Supported cfg c ops) {a b u : Abs I} (ha : (contents 64 18 ops)[i]? = some a)
    (hb : (contents 64 18 ops)[j]? = some b) (hu : (contents 64 18 ops)[k]? = some u)
    (hpa : a.p = u.p) (hpb : b.p = u.p) (hS : u.S = a.S ∪ b.S) (ha0 : a.S.Nonempty) (hb0 : b.S.Nonempty)
    (hd : Disjoint (codes u.p a.S) (codes u.p b.S)) (hf : fitsSparse u.p u.S) :
    ∃ x y z : ℚ, later (Plus.api cfg ln c) ords ops [.count i, .count j, .count k] =
        .ok [.count (fin x), .count (fin y), .count (fin z)] ∧ x + y < z := by
  have hp := contents_valid 64 18 ops u (List.mem_of_getElem? hu)
  have hfa : fitsSparse u.p a.S := fitsSparse_mono (hS ▸ Finset.subset_union_left) hf
  have hfb : fitsSparse u.p b.S := fitsSparse_mono (hS ▸ Finset.subset_union_right) hf
  have hcard : (codes u.p u.S).card = (codes u.p a.S).card + (codes u.p b.S).card := by
    rw [hS, codes_union, Finset.card_union_of_disjoint hd]
  have hcap : (codes u.p u.S).card ≤ 2 ^ 18 := by
    have h1 := card_le_encSize (codes u.p u.S)
    have h2 := capacity_le hp.2.1
    unfold fitsSparse at hf
    omega
  obtain ⟨x, y, z, x1, y1, z1, hlt⟩ := linear_super hln (a := (codes u.p a.S).card)
    (b := (codes u.p b.S).card) (Finset.card_pos.2 (ha0.image _)) (Finset.card_pos.2 (hb0.image _))
    (by omega)
  refine ⟨x, y, z, ?_, hlt⟩
  rw [plus_three hs ha hb hu, hpa, hpb]
  unfold plusCount
  rw [if_pos hfa, if_pos hfb, if_pos hf, x1, y1, hcard, z1]

/-! ## Instances -/

/-- Two sketches of precision 14, the first with the values below `2a`, the second with those from `a`
to `3a`, and a third one for the union. -/
def threeSets (a : Nat) : List (Op (Fin (3 * a))) :=
  let low : List (Fin (3 * a)) := (List.finRange (3 * a)).filter fun v => v.val < 2 * a
  let high : List (Fin (3 * a)) := (List.finRange (3 * a)).filter fun v => a ≤ v.val
  [.new 14 fun _ => 0, .new 14 fun _ => 0] ++ low.map (.insert .insert 0) ++
    high.map (.insert .insert 1) ++ [.clone 0, .merge 2 1]

/-- The values below `2a`. -/
def lowSet (a : Nat) : Finset (Fin (3 * a)) := Finset.univ.filter fun v => v.val < 2 * a

/-- The values from `a` on. -/
def highSet (a : Nat) : Finset (Fin (3 * a)) := Finset.univ.filter fun v => a ≤ v.val

theorem received_threeSets (a : Nat) {maxP : Nat} (hM : 14 ≤ maxP) :
    received maxP (threeSets a) = [(14, lowSet a), (14, highSet a), (14, lowSet a ∪ highSet a)] := by
  unfold received threeSets
  simp only [List.foldl_append]
  rw [show [Op.new 14 fun _ => 0, .new 14 fun _ => 0].foldl (receive maxP) [] =
    [((14 : Nat), (∅ : Finset (Fin (3 * a)))), (14, ∅)] by simp [receive, hM]]
  rw [receive_inserts (i := 0) maxP .insert _ [(14, ∅), (14, ∅)] (14, ∅) rfl]
  simp only [List.set_cons_zero]
  rw [receive_inserts (i := 1) maxP .insert _ [_, (14, ∅)] (14, ∅) rfl]
  have e1 : ((List.finRange (3 * a)).filter fun v => v.val < 2 * a).toFinset = lowSet a := by
    ext v; simp [lowSet]
  have e2 : ((List.finRange (3 * a)).filter fun v => a ≤ v.val).toFinset = highSet a := by
    ext v; simp [highSet]
  simp [receive, e1, e2]

theorem card_threeSets (a : Nat) : (lowSet a).card = 2 * a ∧ (highSet a).card = 2 * a ∧
    (lowSet a ∩ highSet a).card = a ∧ (lowSet a ∪ highSet a).card = 3 * a := by
  have key : ∀ (x y : Nat), y ≤ 3 * a →
      (Finset.univ.filter fun v : Fin (3 * a) => x ≤ v.val ∧ v.val < y).card = y - x := by
    intro x y hy
    rw [← Nat.card_Ico]
    refine Finset.card_bij (fun v _ => v.val) ?_ ?_ ?_
    · intro v hv; simpa using hv
    · intro v _ w _ h; exact Fin.ext h
    · intro z hz
      rw [Finset.mem_Ico] at hz
      exact ⟨⟨z, by omega⟩, by simpa using hz, rfl⟩
  have e1 : lowSet a = Finset.univ.filter fun v : Fin (3 * a) => 0 ≤ v.val ∧ v.val < 2 * a := by
    ext v; simp [lowSet]
  have e2 : highSet a = Finset.univ.filter fun v : Fin (3 * a) => a ≤ v.val ∧ v.val < 3 * a := by
    ext v; simp [highSet]
  have e3 : lowSet a ∩ highSet a = Finset.univ.filter fun v : Fin (3 * a) => a ≤ v.val ∧ v.val < 2 * a := by
    ext v; simp [lowSet, highSet]; omega
  have e4 : lowSet a ∪ highSet a = Finset.univ.filter fun v : Fin (3 * a) => 0 ≤ v.val ∧ v.val < 3 * a := by
    ext v; simp [lowSet, highSet]; omega
  rw [e3, e4, e1, e2, key _ _ (by omega), key _ _ (by omega), key _ _ (by omega), key _ _ (by omega)]
  omega

theorem threeSets_reload (a : Nat) (h : Fin (3 * a) → Fin (2 ^ 64)) (i : Nat) :
    Op.reload i ∉ (threeSets a).map (withHashes h) := by
  simp [threeSets, withHashes]

/-- An instance: two sketches with `2^14` registers have 400000 values each, half of them shared.  The
size of the intersection, 200000, is computed to within 168000 except with probability below
`10^-13`. -/
example (hln : LnSpec ln) : fraction (fun h : Fin (3 * 200000) → Fin (2 ^ 64) => ¬ ∃ x y z : ℚ,
    later (Plus.api Cfg.debug64 ln (noCodec _)) ords ((threeSets 200000).map (withHashes h))
      [.count 0, .count 1, .count 2] = .ok [.count (fin x), .count (fin y), .count (fin z)] ∧
    |(x : ℝ) + y - z - (200000 : ℕ)| ≤ 168000) ≤ 1 / 10 ^ 13 := by
  obtain ⟨c1, c2, c3, c4⟩ := card_threeSets 200000
  have hr := received_threeSets 200000 (maxP := 18) (by norm_num)
  have h := C75_plus_set_operations (ords := ords) (cfg := Cfg.debug64) (N := 3 * 200000)
    (ops := threeSets 200000) (δ := 0.1) (i := 0) (j := 1) (k := 2) (p := 14) (A := lowSet 200000)
    (B := highSet 200000) hln (noCodec _)
    (fun h => supported64 rfl _ (threeSets_reload 200000 h)) (by rw [hr]; rfl) (by rw [hr]; rfl)
    (by rw [hr]; rfl) (by rw [c4]; norm_num) (by norm_num) (by norm_num) (by norm_num)
  rw [c1, c2, c3, c4] at h
  refine le_trans (fraction_mono fun g hg => ?_) (h.trans ?_)
  · rintro ⟨x, y, z, e1, e2, -⟩
    refine hg ⟨x, y, z, e1, e2.trans ?_⟩
    norm_num
  · have := exp_neg_le (x := 2 ^ 14 * 0.1 ^ 2 / 4) (k := 40) (by norm_num)
    norm_num at this ⊢
    linarith

/-- An instance: the values 0 and 1 have the hashes `0` and `2^63`; one sketch gets the first, one the
second, one both, and the third count exceeds the sum of the other two. -/
example (hln : LnSpec ln) : ∃ x y z : ℚ,
    later (Plus.api Cfg.debug64 ln (noCodec Nat)) ords
      [.new 14 fun v => BitVec.ofNat 64 (v * 2 ^ 63), .new 14 fun v => BitVec.ofNat 64 (v * 2 ^ 63),
        .insert .insert 0 0, .insert .insert 1 1, .clone 0, .merge 2 1]
      [.count 0, .count 1, .count 2] = .ok [.count (fin x), .count (fin y), .count (fin z)] ∧ x + y < z := by
  refine C75_plus_superadditive (a := ⟨_, 14, {0}⟩) (b := ⟨_, 14, {2 ^ 63}⟩) (u := ⟨_, 14, {0} ∪ {2 ^ 63}⟩)
    hln (supported64 rfl _ (by simp)) rfl rfl rfl rfl rfl rfl (by simp) (by simp) ?_ ?_
  · decide +kernel
  · refine fits_of_card (by decide +kernel) ?_
    decide +kernel

end HLL
