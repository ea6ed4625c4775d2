import Verif.Proofs.ExpMoments
import Verif.Proofs.BiasNum
import Verif.Proofs.Harmonic

/-! # The empirical tables against the mean of the raw estimate -/

namespace HLL
open F64 Constants Exps Spec

namespace Tables

/-- The integer below `10^12 α`, by precision. -/
def alphaLo : List Nat :=
  [673000000000, 696999999999, 708999999999, 715270493263, 718272593249, 719783113321, 720540758322,
   720920179261, 721110039616, 721205007299, 721252500521, 721276249478, 721288124543, 721294062223,
   721297031099]

theorem alphaLo_ok : ∀ q : Fin 15, (alphaLo.getD q 0 : ℚ) ≤ alphaQ (4 + q) * 10 ^ 12 ∧
    alphaQ (4 + q) * 10 ^ 12 ≤ (alphaLo.getD q 0 : ℚ) + 1 := by decide +kernel

/-- The number of values an entry belongs to: estimate minus bias, to the nearest integer. -/
def node (r b : ℤ × ℕ) : ℕ := ((sc r - sc b + 5 * 10 ^ 15) / 10 ^ 16).toNat

/-- What is checked of each entry: estimate minus bias is a whole number `T` (up to
`10^-9`), `1 ≤ T ≤ 5 m`, and `r E (T/m) / (α m)` is within `0.0017 + 1.7 / m` of 1. -/
def nearOk (i : ℕ) (r b : ℤ × ℕ) : Bool :=
  let m := 2 ^ (i + 4)
  let T := node r b
  let A := alphaLo.getD i 0
  let a := T * 2 ^ (14 - i)
  let R := (sc r).toNat
  decide (|sc r - sc b - T * 10 ^ 16| ≤ 10 ^ 7) && decide (1 ≤ T) && decide (T ≤ 5 * m) &&
  decide (R * Ehi a * 10 ^ 4 * m * 10 ^ 12 ≤ (10017 * m + 17000) * A * m * 10 ^ 16 * 2 ^ 81) &&
  decide (9983 * m * (A + 1) * m * 10 ^ 16 * 2 ^ 81 ≤
    R * Elo a * 10 ^ 4 * m * 10 ^ 12 + 17000 * (A + 1) * m * 10 ^ 16 * 2 ^ 81)

/-- What is checked of neighbours: the numbers of values increase by at most `m/16` (`m/32` from
precision 5 on). -/
def stepOk (i : ℕ) (r b r' b' : ℤ × ℕ) : Bool :=
  decide (node r b < node r' b') &&
  decide (32 * (node r' b' - node r b) ≤ if i = 0 then 2 ^ 5 else 2 ^ (i + 4))

theorem near_ok : ∀ i < 15, entriesOk (nearOk i) (rawL i) (biasL i) = true := by decide +kernel

theorem step_ok : ∀ i < 15, pairsOkT (stepOk i) (rawL i) (biasL i) = true := by decide +kernel

/-- The first entry belongs to one value and the last one lies between `4.96 m` and `5 m`. -/
def endsOk (i : ℕ) (rs bs : List (ℤ × ℕ)) : Bool :=
  let m : ℤ := 2 ^ (i + 4)
  let r := rs.getD (rs.length - 1) (0, 0)
  let b := bs.getD (rs.length - 1) (0, 0)
  decide (sc (rs.getD 0 (0, 0)) * 100 ≤ 725 * m * 10 ^ 15) &&
  decide (496 * m * 10 ^ 14 ≤ sc r) &&
  decide (49 * m ≤ 10 * node r b)

theorem ends_ok : ∀ i < 15, 4 ≤ i → endsOk i (rawL i) (biasL i) = true := by decide +kernel

end Tables

namespace Plus

/-- The number of values entry `k` of the tables of precision `p` belongs to. -/
def nodeT (p k : Nat) : Nat :=
  Tables.node ((Tables.rawL (p - 4)).getD k (0, 0)) ((Tables.biasL (p - 4)).getD k (0, 0))

/-- The relative error allowed for the entries. -/
noncomputable def tol (p : Nat) : ℝ := 0.0018 + 1.7 / 2 ^ p

theorem alphaLo_bounds {p : Nat} (hp1 : 4 ≤ p) (hp2 : p ≤ 18) :
    (Tables.alphaLo.getD (p - 4) 0 : ℝ) ≤ alphaQ p * 10 ^ 12 ∧
      (alphaQ p : ℝ) * 10 ^ 12 ≤ (Tables.alphaLo.getD (p - 4) 0 : ℝ) + 1 := by
  have h := Tables.alphaLo_ok ⟨p - 4, by omega⟩
  simp only [show 4 + (p - 4) = p by omega] at h
  constructor
  · have := h.1
    exact_mod_cast this
  · have := h.2
    exact_mod_cast this

theorem near_arith {R Eh El m A a E r : ℝ} (hm1 : 16 ≤ m) (hR : 0 ≤ R) (hE0 : 0 < E) (hE1 : E ≤ 1)
    (ha : 0.67 ≤ a) (hA0 : 0 ≤ A) (hA1 : A ≤ a * 10 ^ 12) (hA2 : a * 10 ^ 12 ≤ A + 1)
    (hEl : El / 2 ^ 81 ≤ E) (hEh : E ≤ Eh / 2 ^ 81)
    (c4 : R * Eh * 10 ^ 4 * m * 10 ^ 12 ≤ (10017 * m + 17000) * A * m * 10 ^ 16 * 2 ^ 81)
    (c5 : 9983 * m * (A + 1) * m * 10 ^ 16 * 2 ^ 81 ≤
      R * El * 10 ^ 4 * m * 10 ^ 12 + 17000 * (A + 1) * m * 10 ^ 16 * 2 ^ 81)
    (hr : |r - R / 10 ^ 16| ≤ 1 / 2 ^ 31) :
    (1 - (0.0018 + 1.7 / m)) * (a * m) ≤ r * E ∧ r * E ≤ (1 + (0.0018 + 1.7 / m)) * (a * m) := by
  have hm0 : 0 < m := by linarith
  have hr' := abs_le.1 hr
  have d1 : R / 10 ^ 16 * E ≤ (1.0017 + 1.7 / m) * (a * m) := by
    have h1 : R * E ≤ R * (Eh / 2 ^ 81) := mul_le_mul_of_nonneg_left hEh hR
    have h2 : R * Eh ≤ (1.0017 * m + 1.7) * A * 2 ^ 81 * 10 ^ 4 := by
      have h3 : R * Eh * (10 ^ 4 * m * 10 ^ 12) ≤
          (1.0017 * m + 1.7) * A * 2 ^ 81 * 10 ^ 4 * (10 ^ 4 * m * 10 ^ 12) := by
        norm_num at c4 ⊢; linarith
      exact le_of_mul_le_mul_right h3 (by positivity)
    have h4 : (1.0017 * m + 1.7) * A ≤ (1.0017 * m + 1.7) * (a * 10 ^ 12) :=
      mul_le_mul_of_nonneg_left hA1 (by norm_num; linarith)
    have e : (1.0017 + 1.7 / m) * (a * m) = (1.0017 * m + 1.7) * a := by field_simp
    rw [e, div_mul_eq_mul_div, div_le_iff₀ (by positivity)]
    refine h1.trans ?_
    rw [← mul_div_assoc, div_le_iff₀ (by positivity)]
    refine h2.trans ?_
    norm_num at h4 ⊢
    linarith
  have d2 : (0.9983 - 1.7 / m) * (a * m) ≤ R / 10 ^ 16 * E := by
    have h1 : R * (El / 2 ^ 81) ≤ R * E := mul_le_mul_of_nonneg_left hEl hR
    have h2 : (0.9983 * m - 1.7) * (A + 1) * 2 ^ 81 * 10 ^ 4 ≤ R * El := by
      have h3 : (0.9983 * m - 1.7) * (A + 1) * 2 ^ 81 * 10 ^ 4 * (10 ^ 4 * m * 10 ^ 12) ≤
          R * El * (10 ^ 4 * m * 10 ^ 12) := by
        norm_num at c5 ⊢; linarith
      exact le_of_mul_le_mul_right h3 (by positivity)
    have h4 : (0.9983 * m - 1.7) * (a * 10 ^ 12) ≤ (0.9983 * m - 1.7) * (A + 1) :=
      mul_le_mul_of_nonneg_left hA2 (by norm_num; linarith)
    have e : (0.9983 - 1.7 / m) * (a * m) = (0.9983 * m - 1.7) * a := by field_simp
    rw [e, div_mul_eq_mul_div, le_div_iff₀ (by positivity)]
    refine le_trans ?_ h1
    rw [← mul_div_assoc, le_div_iff₀ (by positivity)]
    refine le_trans ?_ h2
    norm_num at h4 ⊢
    linarith
  have ham : 10 ≤ a * m := by norm_num at ha; nlinarith
  have d3 : |r * E - R / 10 ^ 16 * E| ≤ 1 / 2 ^ 31 := by
    rw [← sub_mul, abs_mul, abs_of_pos hE0]
    calc _ ≤ 1 / 2 ^ 31 * (1 : ℝ) := by gcongr
      _ = _ := mul_one _
  have d4 := abs_le.1 d3
  rw [add_mul] at d1
  rw [sub_mul] at d2
  have e1 : (1 - (0.0018 + 1.7 / m)) * (a * m) = (1 - 0.0018) * (a * m) - 1.7 / m * (a * m) := by ring
  have e2 : (1 + (0.0018 + 1.7 / m)) * (a * m) = (1 + 0.0018) * (a * m) + 1.7 / m * (a * m) := by ring
  rw [e1, e2]
  generalize 1.7 / m * (a * m) = z at *
  norm_num at *
  constructor <;> linarith

/-- Each entry of the table of raw estimates is near `α m / E (T/m)`, where the whole number `T` is the
entry minus its bias. -/
theorem table_near {p : Nat} (hp1 : 4 ≤ p) (hp2 : p ≤ 18) {k : Nat} (hk : k < (rawTable p).length) :
    1 ≤ nodeT p k ∧ nodeT p k ≤ 5 * 2 ^ p ∧
    |rawV p k - biasV p k - nodeT p k| ≤ 1 / 2 ^ 28 ∧
    (1 - tol p) * (alphaQ p * 2 ^ p) ≤ rawV p k * E (nodeT p k / 2 ^ p) ∧
    rawV p k * E (nodeT p k / 2 ^ p) ≤ (1 + tol p) * (alphaQ p * 2 ^ p) := by
  have hk1 : k < (Tables.rawL (p - 4)).length := by rw [rawL_length]; exact hk
  have hck := Tables.entriesOk_get (Tables.near_ok (p - 4) (by omega)) k hk1
  obtain ⟨_, v1, v2⟩ := vals hp1 hp2 hk
  obtain ⟨al1, al2⟩ := alphaLo_bounds hp1 hp2
  have al3 := (alpha_facts hp1 hp2).2.1
  have hck2 := Tables.entriesOk_get (Tables.entries_ok (p - 4) (by omega)) k hk1
  unfold nodeT tol
  generalize (Tables.rawL (p - 4)).getD k (0, 0) = r at *
  generalize (Tables.biasL (p - 4)).getD k (0, 0) = b at *
  simp only [Tables.nearOk, Tables.entryOk, Bool.and_eq_true, decide_eq_true_eq] at hck hck2
  obtain ⟨⟨⟨⟨c1, c2⟩, c3⟩, c4⟩, c5⟩ := hck
  obtain ⟨⟨⟨⟨⟨-, -⟩, c6⟩, -⟩, -⟩, -⟩ := hck2
  rw [show p - 4 + 4 = p by omega] at c3 c4 c5
  rw [show 14 - (p - 4) = 18 - p by omega] at c4 c5
  generalize Tables.node r b = T at *
  have hR0 : 0 ≤ Tables.sc r := by linarith
  obtain ⟨R, hR⟩ := Int.eq_ofNat_of_zero_le hR0
  rw [hR] at c1 c4 c5 v1
  simp only [Int.toNat_natCast] at c4 c5
  have e18 : (2 : ℕ) ^ p * 2 ^ (18 - p) = 2 ^ 18 := by rw [← pow_add]; congr 1; omega
  have ha : T * 2 ^ (18 - p) ≤ 2 ^ 21 := by
    calc T * 2 ^ (18 - p) ≤ 5 * 2 ^ p * 2 ^ (18 - p) := Nat.mul_le_mul_right _ c3
      _ = 5 * (2 ^ p * 2 ^ (18 - p)) := by ring
      _ ≤ 2 ^ 21 := by rw [e18]; norm_num
  have hb := E_bounds ha
  have eT : ((T * 2 ^ (18 - p) : ℕ) : ℝ) / 2 ^ 18 = T / 2 ^ p := by
    have : (2 : ℝ) ^ 18 = 2 ^ p * 2 ^ (18 - p) := by exact_mod_cast e18.symm
    rw [this]; push_cast; field_simp
  rw [eT] at hb
  refine ⟨c2, c3, ?_, ?_⟩
  · have c1' : |(R : ℚ) - Tables.sc b - T * 10 ^ 16| ≤ 10 ^ 7 := by exact_mod_cast c1
    push_cast at v1
    rw [abs_le] at *
    norm_num at v1 v2 c1' ⊢
    constructor <;> linarith
  · have hm : (16 : ℝ) ≤ 2 ^ p := by
      calc (16 : ℝ) = 2 ^ 4 := by norm_num
        _ ≤ 2 ^ p := pow_le_pow_right₀ (by norm_num) hp1
    have v1' : |(rawV p k : ℝ) - R / 10 ^ 16| ≤ 1 / 2 ^ 31 := by
      have := (Rat.cast_le (K := ℝ)).2 v1
      push_cast at this
      exact this
    have c4' : (R : ℝ) * Ehi (T * 2 ^ (18 - p)) * 10 ^ 4 * 2 ^ p * 10 ^ 12 ≤
        (10017 * 2 ^ p + 17000) * (Tables.alphaLo.getD (p - 4) 0 : ℝ) * 2 ^ p * 10 ^ 16 * 2 ^ 81 := by
      exact_mod_cast c4
    have c5' : 9983 * 2 ^ p * ((Tables.alphaLo.getD (p - 4) 0 : ℝ) + 1) * 2 ^ p * 10 ^ 16 * 2 ^ 81 ≤
        (R : ℝ) * Elo (T * 2 ^ (18 - p)) * 10 ^ 4 * 2 ^ p * 10 ^ 12 +
          17000 * ((Tables.alphaLo.getD (p - 4) 0 : ℝ) + 1) * 2 ^ p * 10 ^ 16 * 2 ^ 81 := by
      exact_mod_cast c5
    have al3' : (0.67 : ℝ) ≤ alphaQ p := by
      have : ((67 / 100 : ℚ) : ℝ) ≤ alphaQ p := by exact_mod_cast al3
      norm_num at this ⊢; exact this
    exact near_arith hm (Nat.cast_nonneg R) (E_pos _) (E_le_one (by positivity)) al3'
      (Nat.cast_nonneg _) al1 al2 hb.1 hb.2 c4' c5' v1'

theorem nodeT_step {p : Nat} (hp1 : 4 ≤ p) (hp2 : p ≤ 18) {k : Nat} (hk : k + 1 < (rawTable p).length) :
    nodeT p k < nodeT p (k + 1) ∧ 16 * (nodeT p (k + 1) - nodeT p k) ≤ 2 ^ p ∧
    (5 ≤ p → 32 * (nodeT p (k + 1) - nodeT p k) ≤ 2 ^ p) := by
  have hk1 : k + 1 < (Tables.rawL (p - 4)).length := by rw [rawL_length]; exact hk
  have h := Tables.pairsOkT_get (Tables.step_ok (p - 4) (by omega)) k hk1
  simp only [Tables.stepOk, Bool.and_eq_true, decide_eq_true_eq] at h
  rw [show p - 4 + 4 = p by omega] at h
  unfold nodeT
  obtain ⟨h1, h2⟩ := h
  refine ⟨h1, ?_, fun h5 => ?_⟩
  · by_cases h5 : p - 4 = 0
    · rw [if_pos h5] at h2
      obtain rfl : p = 4 := by omega
      omega
    · rw [if_neg h5] at h2
      have : (0 : ℕ) < 2 ^ p := by positivity
      omega
  · rwa [if_neg (by omega)] at h2

theorem table_ends {p : Nat} (hp1 : 8 ≤ p) (hp2 : p ≤ 18) :
    (rawV p 0 : ℝ) ≤ 0.7251 * 2 ^ p ∧
    4.95 * 2 ^ p ≤ (rawV p ((rawTable p).length - 1) : ℝ) ∧
    49 * 2 ^ p ≤ 10 * nodeT p ((rawTable p).length - 1) := by
  have hlen := table_lengths (p := p) (by omega) hp2
  obtain ⟨_, v1, -⟩ := vals (p := p) (by omega) hp2 (k := 0) (by omega)
  obtain ⟨_, v2, -⟩ := vals (p := p) (by omega) hp2 (k := (rawTable p).length - 1) (by omega)
  have h := Tables.ends_ok (p - 4) (by omega) (by omega)
  simp only [Tables.endsOk, Bool.and_eq_true, decide_eq_true_eq] at h
  rw [show p - 4 + 4 = p by omega, rawL_length] at h
  unfold nodeT
  generalize (Tables.rawL (p - 4)).getD 0 (0, 0) = r at *
  generalize (Tables.rawL (p - 4)).getD ((rawTable p).length - 1) (0, 0) = r' at *
  generalize (Tables.biasL (p - 4)).getD ((rawTable p).length - 1) (0, 0) = b at *
  obtain ⟨⟨h1, h2⟩, h3⟩ := h
  have h1' : (Tables.sc r : ℚ) * 100 ≤ 725 * 2 ^ p * 10 ^ 15 := by exact_mod_cast h1
  have h2' : 496 * (2 : ℚ) ^ p * 10 ^ 14 ≤ Tables.sc r' := by exact_mod_cast h2
  have hm : (256 : ℚ) ≤ 2 ^ p := by
    calc (256 : ℚ) = 2 ^ 8 := by norm_num
      _ ≤ 2 ^ p := pow_le_pow_right₀ (by norm_num) hp1
  rw [abs_le] at v1 v2
  refine ⟨?_, ?_, by exact_mod_cast h3⟩
  · have : rawV p 0 ≤ 0.7251 * 2 ^ p := by norm_num at *; linarith
    have : (rawV p 0 : ℝ) ≤ ((0.7251 * 2 ^ p : ℚ) : ℝ) := by exact_mod_cast this
    push_cast at this; norm_num at this ⊢; exact this
  · have : 4.95 * 2 ^ p ≤ rawV p ((rawTable p).length - 1) := by norm_num at *; linarith
    have : ((4.95 * 2 ^ p : ℚ) : ℝ) ≤ (rawV p ((rawTable p).length - 1) : ℝ) := by exact_mod_cast this
    push_cast at this; norm_num at this ⊢; exact this

end Plus
end HLL
