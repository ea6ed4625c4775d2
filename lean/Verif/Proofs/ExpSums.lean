import Mathlib.Analysis.Calculus.Deriv.MeanValue
import Mathlib.Analysis.SpecialFunctions.ExpDeriv
import Verif.Proofs.Oscillation

/-!
# The mean of `2^-M` for up to `6 m` values

`E (n / m)` approximates the mean of `2^-M[j]` after `n` insertions into `m` registers.  Its values are
bounded by integer arithmetic; between the points of a grid monotonicity is used.
-/

namespace HLL.Exps
open Real Finset Osc

/-- `∑_{k < K} 2^-(k+1) exp (-l/2^k) + 2^-K`. -/
noncomputable def EK (K : Nat) (l : ℝ) : ℝ :=
  ∑ k ∈ range K, (1 / 2) ^ (k + 1) * exp (-(l / 2 ^ k)) + (1 / 2) ^ K

/-- The negative derivative of `EK K`. -/
noncomputable def DK (K : Nat) (l : ℝ) : ℝ :=
  ∑ k ∈ range K, (1 / 2) ^ (2 * k + 1) * exp (-(l / 2 ^ k))

noncomputable def E (l : ℝ) : ℝ := EK 17 l
noncomputable def D (l : ℝ) : ℝ := DK 17 l

theorem EK_pos (K : Nat) (l : ℝ) : 0 < EK K l := by
  refine add_pos_of_nonneg_of_pos (sum_nonneg fun k _ => ?_) (by positivity)
  have := exp_pos (-(l / 2 ^ k))
  positivity

theorem E_pos (l : ℝ) : 0 < E l := EK_pos _ _

theorem D_pos (l : ℝ) : 0 < D l := by
  unfold D DK
  refine sum_pos (fun k _ => ?_) ⟨0, by simp⟩
  have := exp_pos (-(l / 2 ^ k))
  positivity

theorem E_anti {x y : ℝ} (h : x ≤ y) : E y ≤ E x := by
  refine add_le_add (sum_le_sum fun k _ => ?_) le_rfl
  gcongr

theorem D_anti {x y : ℝ} (h : x ≤ y) : D y ≤ D x := by
  unfold D DK
  refine sum_le_sum fun k _ => ?_
  gcongr

theorem hasDerivAt_E (l : ℝ) : HasDerivAt E (-D l) l := by
  have h : ∀ k ∈ range 17, HasDerivAt (fun l : ℝ => (1 / 2 : ℝ) ^ (k + 1) * exp (-(l / 2 ^ k)))
      (-((1 / 2) ^ (2 * k + 1) * exp (-(l / 2 ^ k)))) l := by
    intro k _
    have h1 : HasDerivAt (fun l : ℝ => -(l / 2 ^ k)) (-(1 / 2 ^ k)) l :=
      ((hasDerivAt_id l).div_const _).neg
    have h2 := h1.exp.const_mul ((1 / 2 : ℝ) ^ (k + 1))
    have e : -((1 / 2 : ℝ) ^ (2 * k + 1) * exp (-(l / 2 ^ k))) =
        (1 / 2) ^ (k + 1) * (exp (-(l / 2 ^ k)) * -(1 / 2 ^ k)) := by
      rw [show 2 * k + 1 = (k + 1) + k by ring, pow_add _ (k + 1) k, one_div, inv_pow, inv_pow]
      ring
    rw [e]
    exact h2
  have hs := (HasDerivAt.fun_sum h).add_const ((1 / 2 : ℝ) ^ 17)
  rw [sum_neg_distrib] at hs
  exact hs

/-! ## Evaluation -/

/-- Lower bound for `2^64 exp (-a/2^34)`. -/
def lo1 (a : Nat) : Nat := 2 ^ 64 + a * a / 32 - (a * 2 ^ 30 + 2 ^ 23)

/-- Upper bound for `2^64 exp (-a/2^34)`. -/
def hi1 (a : Nat) : Nat := 2 ^ 64 + a * a / 32 + 1 + 2 ^ 23 - a * 2 ^ 30

theorem exp_start1 {a : Nat} (ha : a ≤ 2 ^ 21) :
    (lo1 a : ℝ) / 2 ^ 64 ≤ exp (-(a / 2 ^ 34)) ∧ exp (-(a / 2 ^ 34)) ≤ (hi1 a : ℝ) / 2 ^ 64 := by
  have haR : (a : ℝ) ≤ 2 ^ 21 := by exact_mod_cast ha
  have ha0 : (0 : ℝ) ≤ a := Nat.cast_nonneg a
  have hb := Real.exp_bound (x := -(a / 2 ^ 34 : ℝ)) (n := 3) (by
    rw [abs_neg, abs_of_nonneg (by positivity)]
    rw [div_le_one (by positivity)]; exact haR.trans (by norm_num)) (by norm_num)
  rw [abs_neg, abs_of_nonneg (a := (a / 2 ^ 34 : ℝ)) (by positivity)] at hb
  have h4 : ((a : ℝ) / 2 ^ 34) ^ 3 ≤ 1 / 2 ^ 39 := by
    calc ((a : ℝ) / 2 ^ 34) ^ 3 ≤ (2 ^ 21 / 2 ^ 34) ^ 3 := by gcongr
      _ = 1 / 2 ^ 39 := by norm_num
  have hb' : |exp (-(a / 2 ^ 34 : ℝ)) - (1 - a / 2 ^ 34 + (a / 2 ^ 34) ^ 2 / 2)| ≤
      2 ^ 23 / 2 ^ 64 := by
    have e : ∑ m ∈ range 3, (-(a / 2 ^ 34 : ℝ)) ^ m / m.factorial =
        1 - a / 2 ^ 34 + (a / 2 ^ 34) ^ 2 / 2 := by
      simp [sum_range_succ, Nat.factorial]; ring
    rw [e] at hb
    refine hb.trans ?_
    have : ((Nat.succ 3 : ℕ) : ℝ) / ((Nat.factorial 3 : ℕ) * (3 : ℕ)) = 2 / 9 := by
      norm_num [Nat.factorial]
    rw [this]
    calc ((a : ℝ) / 2 ^ 34) ^ 3 * (2 / 9) ≤ 1 / 2 ^ 39 * (2 / 9) := by gcongr
      _ ≤ 2 ^ 23 / 2 ^ 64 := by norm_num
  rw [abs_le] at hb'
  obtain ⟨b1, b2⟩ := hb'
  have hdiv : ((a * a / 32 : ℕ) : ℝ) ≤ a ^ 2 / 32 ∧ (a : ℝ) ^ 2 / 32 ≤ ((a * a / 32 : ℕ) : ℝ) + 1 := by
    constructor
    · refine Nat.cast_div_le.trans (le_of_eq ?_); push_cast; ring
    · have := Nat.lt_div_mul_add (a := a * a) (b := 32) (by norm_num)
      have h : ((a * a : ℕ) : ℝ) < ((a * a / 32 * 32 + 32 : ℕ) : ℝ) := by exact_mod_cast this
      push_cast at h ⊢
      linarith
  have e2 : (1 : ℝ) - a / 2 ^ 34 + (a / 2 ^ 34) ^ 2 / 2 =
      (2 ^ 64 + a ^ 2 / 32 - a * 2 ^ 30) / 2 ^ 64 := by
    ring
  rw [e2] at b1 b2
  have hle : a * 2 ^ 30 + 2 ^ 23 ≤ 2 ^ 64 + a * a / 32 := by
    have : 0 ≤ a * a / 32 := Nat.zero_le _
    omega
  have c1 : (lo1 a : ℝ) = 2 ^ 64 + (a * a / 32 : ℕ) - (a * 2 ^ 30 + 2 ^ 23) := by
    unfold lo1
    rw [Nat.cast_sub hle]
    generalize a * a / 32 = d
    push_cast
    norm_num
  have c2 : (hi1 a : ℝ) = 2 ^ 64 + (a * a / 32 : ℕ) + 1 + 2 ^ 23 - a * 2 ^ 30 := by
    have hle2 : a * 2 ^ 30 ≤ 2 ^ 64 + a * a / 32 + 1 + 2 ^ 23 :=
      le_trans (Nat.le_add_right _ (2 ^ 23)) (hle.trans (by
        rw [add_assoc _ 1]; exact Nat.le_add_right _ _))
    unfold hi1
    rw [Nat.cast_sub hle2]
    generalize a * a / 32 = d
    push_cast
    norm_num
  rw [c1, c2, div_le_iff₀ (by positivity), le_div_iff₀ (by positivity)]
  clear c1 c2 hle h4 hb
  rw [sub_le_iff_le_add, ← add_div, le_div_iff₀ (by positivity)] at b2
  rw [neg_le_sub_iff_le_add, div_le_iff₀ (by positivity), add_mul,
    div_mul_cancel₀ _ (by positivity)] at b1
  constructor
  · linarith [hdiv.1]
  · linarith [hdiv.2]

theorem E_eq (l : ℝ) :
    E l = (∑ j ∈ range 17, 2 ^ j * exp (-(2 ^ j * (l / 2 ^ 16))) + 1) / 2 ^ 17 := by
  have h : ∑ j ∈ range 17, (2 : ℝ) ^ j * exp (-(2 ^ j * (l / 2 ^ 16))) =
      ∑ k ∈ range 17, 2 ^ 17 * ((1 / 2) ^ (k + 1) * exp (-(l / 2 ^ k))) := by
    rw [← sum_range_reflect]
    refine sum_congr rfl fun k hk => ?_
    rw [mem_range] at hk
    obtain ⟨d, hd⟩ : ∃ d, 16 = k + d := ⟨16 - k, by omega⟩
    have e1 : 17 - 1 - k = d := by omega
    have e2 : (2 : ℝ) ^ 16 = 2 ^ k * 2 ^ d := by rw [← pow_add, ← hd]
    have e3 : (2 : ℝ) ^ 17 = 2 ^ (k + 1) * 2 ^ d := by
      rw [← pow_add]; congr 1; omega
    rw [e1, e2, e3]
    have e4 : (2 : ℝ) ^ d * (l / (2 ^ k * 2 ^ d)) = l / 2 ^ k := by field_simp
    rw [e4, one_div, inv_pow]
    field_simp
  rw [h, ← mul_sum, E, EK]
  ring

theorem D_eq (l : ℝ) : D l = (∑ j ∈ range 17, 4 ^ j * exp (-(2 ^ j * (l / 2 ^ 16)))) / 2 ^ 33 := by
  have h : ∑ j ∈ range 17, (4 : ℝ) ^ j * exp (-(2 ^ j * (l / 2 ^ 16))) =
      ∑ k ∈ range 17, 2 ^ 33 * ((1 / 2) ^ (2 * k + 1) * exp (-(l / 2 ^ k))) := by
    rw [← sum_range_reflect]
    refine sum_congr rfl fun k hk => ?_
    rw [mem_range] at hk
    obtain ⟨d, hd⟩ : ∃ d, 16 = k + d := ⟨16 - k, by omega⟩
    have e1 : 17 - 1 - k = d := by omega
    have e2 : (2 : ℝ) ^ 16 = 2 ^ k * 2 ^ d := by rw [← pow_add, ← hd]
    have e3 : (2 : ℝ) ^ 33 = 2 ^ (2 * k + 1) * 2 ^ (2 * d) := by
      rw [← pow_add]; congr 1; omega
    rw [e1, e2, e3]
    have e4 : (2 : ℝ) ^ d * (l / (2 ^ k * 2 ^ d)) = l / 2 ^ k := by field_simp
    have e5 : (4 : ℝ) ^ d = 2 ^ (2 * d) := by rw [pow_mul]; norm_num
    rw [e4, e5, one_div, inv_pow]
    field_simp
  rw [h, ← mul_sum, D, DK]
  ring

/-- Bounds for `2^81 E (a/2^18)`. -/
def Elo (a : Nat) : Nat := (acc 0 2 17 (lo1 a) 1 0).1 + 2 ^ 64
def Ehi (a : Nat) : Nat := (acc 1 2 17 (hi1 a) 1 0).1 + 2 ^ 64
/-- Bounds for `2^97 D (a/2^18)`. -/
def Dlo (a : Nat) : Nat := (acc 0 4 17 (lo1 a) 1 0).1
def Dhi (a : Nat) : Nat := (acc 1 4 17 (hi1 a) 1 0).1

theorem E_bounds {a : Nat} (ha : a ≤ 2 ^ 21) :
    (Elo a : ℝ) / 2 ^ 81 ≤ E (a / 2 ^ 18) ∧ E (a / 2 ^ 18) ≤ (Ehi a : ℝ) / 2 ^ 81 := by
  have e : (a : ℝ) / 2 ^ 18 / 2 ^ 16 = a / 2 ^ 34 := by ring
  obtain ⟨h1, -⟩ := acc_lo 2 17 (lo1 a) 1 0 (a / 2 ^ 34) (exp_start1 ha).1
  obtain ⟨h2, -⟩ := acc_hi 2 17 (hi1 a) 1 0 (a / 2 ^ 34) (exp_start1 ha).2
  simp only [Nat.cast_zero, zero_div, zero_add, Nat.cast_one, one_mul, Nat.cast_ofNat] at h1 h2
  rw [E_eq, e, Elo, Ehi]
  push_cast
  generalize ((acc 0 2 17 (lo1 a) 1 0).1 : ℝ) = x at *
  generalize ((acc 1 2 17 (hi1 a) 1 0).1 : ℝ) = y at *
  generalize ∑ j ∈ range 17, (2 : ℝ) ^ j * exp (-(2 ^ j * (a / 2 ^ 34))) = s at *
  constructor
  · rw [div_le_div_iff₀ (by positivity) (by positivity)]
    rw [div_le_iff₀ (by positivity)] at h1
    norm_num at h1 ⊢; linarith
  · rw [div_le_div_iff₀ (by positivity) (by positivity)]
    rw [le_div_iff₀ (by positivity)] at h2
    norm_num at h2 ⊢; linarith

theorem D_bounds {a : Nat} (ha : a ≤ 2 ^ 21) :
    (Dlo a : ℝ) / 2 ^ 97 ≤ D (a / 2 ^ 18) ∧ D (a / 2 ^ 18) ≤ (Dhi a : ℝ) / 2 ^ 97 := by
  have e : (a : ℝ) / 2 ^ 18 / 2 ^ 16 = a / 2 ^ 34 := by ring
  obtain ⟨h1, -⟩ := acc_lo 4 17 (lo1 a) 1 0 (a / 2 ^ 34) (exp_start1 ha).1
  obtain ⟨h2, -⟩ := acc_hi 4 17 (hi1 a) 1 0 (a / 2 ^ 34) (exp_start1 ha).2
  simp only [Nat.cast_zero, zero_div, zero_add, Nat.cast_one, one_mul, Nat.cast_ofNat] at h1 h2
  rw [D_eq, e, Dlo, Dhi]
  generalize ((acc 0 4 17 (lo1 a) 1 0).1 : ℝ) = x at *
  generalize ((acc 1 4 17 (hi1 a) 1 0).1 : ℝ) = y at *
  generalize ∑ j ∈ range 17, (4 : ℝ) ^ j * exp (-(2 ^ j * (a / 2 ^ 34))) = s at *
  constructor
  · rw [div_le_div_iff₀ (by positivity) (by positivity)]
    rw [div_le_iff₀ (by positivity)] at h1
    norm_num at h1 ⊢; linarith
  · rw [div_le_div_iff₀ (by positivity) (by positivity)]
    rw [le_div_iff₀ (by positivity)] at h2
    norm_num at h2 ⊢; linarith

/-! ## The grid with step `1/64` -/

/-- The checks for the cell from `j/64` to `(j+1)/64`. -/
def cell (j : Nat) : Bool :=
  let a := j * 2 ^ 12
  let b := (j + 1) * 2 ^ 12
  let e := Elo b
  let d := Dhi a
  decide (Ehi a * 2 ^ 16 * 640 ≤ (10 * j + 1024) * Dlo b) &&
  decide (300 * d * 2 ^ 65 + 200 * 2 ^ 128 ≤ 424 * (e * e)) &&
  (decide (j < 281) ||
    (decide ((100 * (j + 1) - 2880) * d ≤ e * 2 ^ 16 * 6400) &&
      decide (7214 * 2 ^ 81 * 64 ≤ 10060 * j * e) &&
      decide (1000 * (j + 1) * Ehi a ≤ 7213 * 64 * 2 ^ 81 * 1005 / 10000)))

set_option maxRecDepth 100000 in
theorem cells : ((List.range 384).all fun j => cell j) = true := by decide +kernel

theorem grid {x : ℝ} (h0 : 0 ≤ x) (h6 : x ≤ 6) :
    ∃ j : ℕ, j < 384 ∧ (j : ℝ) / 64 ≤ x ∧ x ≤ ((j + 1 : ℕ) : ℝ) / 64 ∧ (4.4 ≤ x → 281 ≤ j) := by
  rcases eq_or_lt_of_le h6 with rfl | h6
  · exact ⟨383, by norm_num, by norm_num, by norm_num, fun _ => by norm_num⟩
  · have h0' : 0 ≤ x * 64 := by positivity
    refine ⟨⌊x * 64⌋₊, ?_, ?_, ?_, fun h => ?_⟩
    · rw [Nat.floor_lt h0']; push_cast; linarith
    · have := Nat.floor_le h0'
      rw [div_le_iff₀ (by positivity)]; linarith
    · have := Nat.lt_floor_add_one (x * 64)
      rw [le_div_iff₀ (by positivity)]; push_cast; linarith
    · rw [Nat.le_floor_iff h0']; push_cast; norm_num at h; linarith

structure Local (x : ℝ) : Prop where
  slope : E x ≤ (x + 1.6) * D x
  second : 3 / 2 * D x + 1 / 2 ^ 34 ≤ 2.12 * E x ^ 2
  slope' : 4.4 ≤ x → (x - 0.45) * D x ≤ E x
  value : 4.4 ≤ x → 0.7214 ≤ 1.006 * x * E x
  value' : 4.4 ≤ x → x * E x ≤ 1.005 * 0.7213

theorem local_bounds {x : ℝ} (h0 : 0 ≤ x) (h6 : x ≤ 6) : Local x := by
  obtain ⟨j, hj, hl, hr, h44⟩ := grid h0 h6
  have hc := List.all_eq_true.1 cells j (List.mem_range.2 hj)
  simp only [cell, Bool.and_eq_true, Bool.or_eq_true, decide_eq_true_eq] at hc
  obtain ⟨⟨c1, c2⟩, c3⟩ := hc
  have ea : ((j * 2 ^ 12 : ℕ) : ℝ) / 2 ^ 18 = j / 64 := by push_cast; ring
  have eb : (((j + 1) * 2 ^ 12 : ℕ) : ℝ) / 2 ^ 18 = (j + 1 : ℕ) / 64 := by push_cast; ring
  have ha : j * 2 ^ 12 ≤ 2 ^ 21 := (Nat.mul_le_mul_right _ hj.le).trans (by norm_num)
  have hb : (j + 1) * 2 ^ 12 ≤ 2 ^ 21 := (Nat.mul_le_mul_right _ hj).trans (by norm_num)
  have A1 := (E_bounds ha).2
  have A2 := (E_bounds hb).1
  have A3 := (D_bounds ha).2
  have A4 := (D_bounds hb).1
  rw [ea] at A1 A3
  rw [eb] at A2 A4
  have E1 := (E_anti hl).trans A1
  have E2 := A2.trans (E_anti hr)
  have D1 := (D_anti hl).trans A3
  have D2 := A4.trans (D_anti hr)
  have hE := E_pos x
  have hD := D_pos x
  generalize Ehi (j * 2 ^ 12) = u1 at *
  generalize Elo ((j + 1) * 2 ^ 12) = u2 at *
  generalize Dhi (j * 2 ^ 12) = u3 at *
  generalize Dlo ((j + 1) * 2 ^ 12) = u4 at *
  have hj0 : (0 : ℝ) ≤ j := Nat.cast_nonneg _
  have u2' : (0 : ℝ) ≤ u2 := Nat.cast_nonneg _
  have u3' : (0 : ℝ) ≤ u3 := Nat.cast_nonneg _
  clear A1 A2 A3 A4 ea eb ha hb
  refine ⟨?_, ?_, fun h => ?_, fun h => ?_, fun h => ?_⟩
  · have c : (u1 : ℝ) * 2 ^ 16 * 640 ≤ (10 * j + 1024) * u4 := by exact_mod_cast c1
    refine E1.trans ?_
    have h1 : (u1 : ℝ) / 2 ^ 81 ≤ (j / 64 + 1.6) * (u4 / 2 ^ 97) := by
      rw [div_le_iff₀ (by positivity)]
      norm_num at c ⊢
      linarith
    refine h1.trans ?_
    gcongr
  · have c : 300 * (u3 : ℝ) * 2 ^ 65 + 200 * 2 ^ 128 ≤ 424 * (u2 * u2) := by exact_mod_cast c2
    have h1 : 3 / 2 * ((u3 : ℝ) / 2 ^ 97) + 1 / 2 ^ 34 ≤ 2.12 * ((u2 : ℝ) / 2 ^ 81) ^ 2 := by
      rw [div_pow, ← pow_mul]
      have h2 : 2.12 * ((u2 : ℝ) ^ 2 / 2 ^ (81 * 2)) = 424 * (u2 * u2) / (200 * 2 ^ 162) := by
        norm_num; ring
      rw [h2, le_div_iff₀ (by positivity)]
      refine le_trans (le_of_eq ?_) c
      ring
    have h3 : ((u2 : ℝ) / 2 ^ 81) ^ 2 ≤ E x ^ 2 := by gcongr
    have h4 : 2.12 * ((u2 : ℝ) / 2 ^ 81) ^ 2 ≤ 2.12 * E x ^ 2 :=
      mul_le_mul_of_nonneg_left h3 (by norm_num)
    linarith
  · have hj2 := h44 h
    obtain ⟨⟨c4, -⟩, -⟩ := c3.resolve_left (by omega)
    have c : (100 * ((j : ℝ) + 1) - 2880) * u3 ≤ u2 * 2 ^ 16 * 6400 := by
      have : ((100 * (j + 1) - 2880 : ℕ) : ℝ) = 100 * ((j : ℝ) + 1) - 2880 := by
        rw [Nat.cast_sub (by omega)]; push_cast; ring
      rw [← this]; exact_mod_cast c4
    refine le_trans ?_ E2
    have h1 : ((j + 1 : ℕ) / 64 - 0.45) * ((u3 : ℝ) / 2 ^ 97) ≤ u2 / 2 ^ 81 := by
      rw [le_div_iff₀ (by positivity)]
      push_cast
      norm_num at c ⊢
      linarith
    refine le_trans ?_ h1
    have : (0 : ℝ) ≤ (j + 1 : ℕ) / 64 - 0.45 := by
      norm_num at h hr ⊢; linarith
    gcongr
  · have hj2 := h44 h
    obtain ⟨⟨-, c5⟩, -⟩ := c3.resolve_left (by omega)
    have c : 7214 * 2 ^ 81 * 64 ≤ 10060 * (j : ℝ) * u2 := by exact_mod_cast c5
    have h1 : 0.7214 ≤ 1.006 * ((j : ℝ) / 64) * (u2 / 2 ^ 81) := by
      have h2 : 1.006 * ((j : ℝ) / 64) * (u2 / 2 ^ 81) = 10060 * (j : ℝ) * u2 / (10000 * 64 * 2 ^ 81) := by
        norm_num; ring
      rw [h2, le_div_iff₀ (by positivity)]
      norm_num at c ⊢
      linarith
    refine h1.trans ?_
    gcongr
  · have hj2 := h44 h
    obtain ⟨-, c6⟩ := c3.resolve_left (by omega)
    rw [Nat.le_div_iff_mul_le (by norm_num)] at c6
    have c : 1000 * ((j : ℝ) + 1) * u1 * 10000 ≤ 7213 * 64 * 2 ^ 81 * 1005 := by exact_mod_cast c6
    have h1 : ((j + 1 : ℕ) : ℝ) / 64 * (u1 / 2 ^ 81) ≤ 1.005 * 0.7213 := by
      rw [div_mul_div_comm, div_le_iff₀ (by positivity)]
      push_cast
      norm_num at c ⊢
      linarith
    refine le_trans ?_ h1
    gcongr

/-- `(x + 1.6) E x` decreases. -/
theorem E_ratio_le {x y : ℝ} (h0 : 0 ≤ x) (h : x ≤ y) (h6 : y ≤ 6) :
    (y + 1.6) * E y ≤ (x + 1.6) * E x := by
  have hd : ∀ l, HasDerivAt (fun l => (l + 1.6) * E l) (1 * E l + (l + 1.6) * (-D l)) l := fun l =>
    ((hasDerivAt_id l).add_const _).mul (hasDerivAt_E l)
  refine antitoneOn_of_deriv_nonpos (convex_Icc 0 6)
    (fun l _ => (hd l).continuousAt.continuousWithinAt)
    (fun l _ => (hd l).differentiableAt.differentiableWithinAt) (fun l hl => ?_)
    ⟨h0, h.trans h6⟩ ⟨h0.trans h, h6⟩ h
  rw [interior_Icc] at hl
  rw [(hd l).deriv]
  have := (local_bounds hl.1.le hl.2.le).slope
  linarith

/-- `(x - 0.45) E x` increases from 4.4. -/
theorem E_ratio_ge {x y : ℝ} (h0 : 4.4 ≤ x) (h : x ≤ y) (h6 : y ≤ 6) :
    (x - 0.45) * E x ≤ (y - 0.45) * E y := by
  have hd : ∀ l, HasDerivAt (fun l => (l - 0.45) * E l) (1 * E l + (l - 0.45) * (-D l)) l := fun l =>
    ((hasDerivAt_id l).sub_const _).mul (hasDerivAt_E l)
  refine monotoneOn_of_deriv_nonneg (convex_Icc 4.4 6)
    (fun l _ => (hd l).continuousAt.continuousWithinAt)
    (fun l _ => (hd l).differentiableAt.differentiableWithinAt) (fun l hl => ?_)
    ⟨h0, h.trans h6⟩ ⟨h0.trans h, h6⟩ h
  rw [interior_Icc] at hl
  rw [(hd l).deriv]
  have := (local_bounds (by have := hl.1.le; norm_num at this ⊢; linarith) hl.2.le).slope' hl.1.le
  linarith

end HLL.Exps
