import Verif.Proofs.ChernoffZeros
import Verif.Proofs.Spacing
import Verif.Proofs.LnFree
import Verif.Proofs.StdError
import Mathlib.Analysis.Convex.SpecificFunctions.Basic

/-! # Which estimator `count` uses with random hashes -/

namespace HLL
open Spec F64 Exps Finset

variable {w p n : Nat} {δ : ℝ}

/-- The harmonic sum is rarely more than twice its mean. -/
theorem harm_double (hl : Loaded w p n) (hp : p ≤ w) (hw : w ≤ 64) :
    fraction (fun h : Fin n → Fin (2 ^ 64) => 2 * (2 ^ p * moment w p n (1 / 2)) ≤ harm w p h) ≤
      Real.exp (-(0.06 * 2 ^ p)) := by
  have he := moment_half_pos (w := w) (p := p) (n := n)
  set μ := moment w p n (1 / 2) with hμ
  have hr := hl.var
  refine le_trans (fraction_mono fun h hh => ?_) ((tail_sum (w := w) (p := p) (n := n)
    (ψ := fun k => 0.064 / μ * ((1 / 2) ^ k - μ)) (Or.inr ?_)
    (fun j hj => mgf_upper hp hw hj (κ := 0.064) (by norm_num) (hl.third j hj _ (by norm_num) le_rfl))
    (2 ^ p * 0.064)).trans (Real.exp_le_exp.2 ?_))
  · have e : ∑ j ∈ range (2 ^ p), 0.064 / μ * ((1 / 2) ^ reg w p (hashSet w h) j - μ) =
        0.064 / μ * (harm w p h - 2 ^ p * μ) := by
      rw [← mul_sum, sum_sub_distrib, sum_const, card_range, nsmul_eq_mul, harm]
      push_cast
      rfl
    rw [e]
    have h1 : 0.064 / μ * (2 * (2 ^ p * μ) - 2 ^ p * μ) ≤ 0.064 / μ * (harm w p h - 2 ^ p * μ) := by gcongr
    have e2 : 0.064 / μ * (2 * (2 ^ p * μ) - 2 ^ p * μ) = 2 ^ p * 0.064 := by field_simp; norm_num
    linarith
  · intro a b hab
    have : (1 / 2 : ℝ) ^ b ≤ (1 / 2) ^ a := pow_le_pow_of_le_one (by norm_num) (by norm_num) hab
    have h0 : 0 ≤ 0.064 / μ := by positivity
    simp only
    gcongr
  · have h1 : (0.064 : ℝ) ^ 2 * relVar w p n / 2 ≤ 0.064 ^ 2 * 1.15 / 2 := by gcongr
    calc (2 : ℝ) ^ p * (0.064 ^ 2 * relVar w p n / 2 + 15.6 * 0.064 ^ 3 / 6) - 2 ^ p * 0.064
        ≤ 2 ^ p * (0.064 ^ 2 * 1.15 / 2 + 15.6 * 0.064 ^ 3 / 6) - 2 ^ p * 0.064 := by gcongr
      _ = 2 ^ p * (0.064 ^ 2 * 1.15 / 2 + 15.6 * 0.064 ^ 3 / 6 - 0.064) := by ring
      _ ≤ 2 ^ p * -0.06 := by gcongr; norm_num
      _ = _ := by ring

/-! ## The number of empty registers and the threshold -/

/-- With more than `m exp(-T/m)` empty registers linear counting is below the threshold `T`. -/
theorem cutoff_le_of {V : Nat} (hp1 : 4 ≤ p) (hp2 : p ≤ 18)
    (h : 2 ^ p * Real.exp (-(threshold p / 2 ^ p)) < V) : cutoff p ≤ V := by
  obtain ⟨c1, c2, -, c4⟩ := log_cutoff hp1 hp2
  by_contra hc
  rw [not_le] at hc
  have hm : (0 : ℝ) < 2 ^ p := by positivity
  have hV : (0 : ℝ) < V := lt_trans (by positivity) h
  have h1 : (V : ℝ) ≤ cutoff p - 1 := by
    have : (V : ℝ) + 1 ≤ cutoff p := by exact_mod_cast hc
    linarith
  have h2 : Real.log (2 ^ p / (cutoff p - 1 : ℝ)) ≤ Real.log (2 ^ p / V) := by
    apply Real.log_le_log (div_pos hm (by linarith))
    gcongr
  have h3 : (threshold p : ℝ) / 2 ^ p ≤ Real.log (2 ^ p / V) := by
    rw [div_le_iff₀ hm]
    have := mul_le_mul_of_nonneg_left h2 hm.le
    linarith
  have h4 := Real.exp_le_exp.2 h3
  rw [Real.exp_log (by positivity), le_div_iff₀ hV] at h4
  have h5 := mul_lt_mul_of_pos_left h (Real.exp_pos ((threshold p : ℝ) / 2 ^ p))
  have e : Real.exp ((threshold p : ℝ) / 2 ^ p) * (2 ^ p * Real.exp (-(threshold p / 2 ^ p))) = 2 ^ p := by
    rw [mul_left_comm, ← Real.exp_add, add_neg_cancel, Real.exp_zero, mul_one]
  linarith

/-- With fewer it is above. -/
theorem lt_cutoff_of {V : Nat} (hp1 : 4 ≤ p) (hp2 : p ≤ 18)
    (h : (V : ℝ) < 2 ^ p * Real.exp (-(threshold p / 2 ^ p))) : V < cutoff p := by
  obtain ⟨c1, c2, c3, -⟩ := log_cutoff hp1 hp2
  by_contra hc
  rw [not_lt] at hc
  have hm : (0 : ℝ) < 2 ^ p := by positivity
  have h1 : (cutoff p : ℝ) ≤ V := by exact_mod_cast hc
  have hc0 : (0 : ℝ) < cutoff p := by exact_mod_cast (by omega : 0 < cutoff p)
  have hV : (0 : ℝ) < V := by linarith
  have h2 : Real.log (2 ^ p / V) ≤ Real.log (2 ^ p / cutoff p) := by
    apply Real.log_le_log (by positivity)
    gcongr
  have h3 : Real.log (2 ^ p / V) ≤ (threshold p : ℝ) / 2 ^ p := by
    rw [le_div_iff₀ hm]
    have := mul_le_mul_of_nonneg_left h2 hm.le
    linarith
  have h4 := Real.exp_le_exp.2 h3
  rw [Real.exp_log (by positivity), div_le_iff₀ hV] at h4
  have h5 := mul_lt_mul_of_pos_left h (Real.exp_pos ((threshold p : ℝ) / 2 ^ p))
  have e : Real.exp ((threshold p : ℝ) / 2 ^ p) * (2 ^ p * Real.exp (-(threshold p / 2 ^ p))) = 2 ^ p := by
    rw [mul_left_comm, ← Real.exp_add, add_neg_cancel, Real.exp_zero, mul_one]
  linarith

theorem threshold_range8 (h1 : 8 ≤ p) (h2 : p ≤ 18) :
    0.61 ≤ (threshold p : ℝ) / 2 ^ p ∧ (threshold p : ℝ) / 2 ^ p ≤ 1.34 := by
  have h : ∀ q : Fin 11, 61 * 2 ^ (8 + q : ℕ) ≤ 100 * threshold (8 + q) ∧
      100 * threshold (8 + q) ≤ 134 * 2 ^ (8 + q : ℕ) := by decide
  obtain ⟨a, b⟩ := h ⟨p - 8, by omega⟩
  simp only [show 8 + (p - 8) = p by omega] at a b
  have a' : 61 * (2 : ℝ) ^ p ≤ 100 * threshold p := by exact_mod_cast a
  have b' : 100 * (threshold p : ℝ) ≤ 134 * 2 ^ p := by exact_mod_cast b
  rw [le_div_iff₀ (by positivity), div_le_iff₀ (by positivity)]
  constructor <;> · norm_num; linarith

theorem exp_61 : Real.exp 0.61 ≤ 1.845 := by
  have h1 := exp_cubic (x := 0.305) (by norm_num)
  have h2 : Real.exp 0.305 ≤ 1.358 := by norm_num at h1 ⊢; linarith
  have e : Real.exp 0.61 = Real.exp 0.305 ^ 2 := by rw [← Real.exp_nat_mul]; norm_num
  rw [e]
  calc Real.exp 0.305 ^ 2 ≤ 1.358 ^ 2 := by gcongr
    _ ≤ _ := by norm_num

theorem exp_134 : Real.exp 1.34 ≤ 3.8424 := by
  have h1 := exp_cubic (x := 0.335) (by norm_num)
  have h2 : Real.exp 0.335 ≤ 1.4 := by norm_num at h1 ⊢; linarith
  have e : Real.exp 1.34 = Real.exp 0.335 ^ 4 := by rw [← Real.exp_nat_mul]; norm_num
  rw [e]
  calc Real.exp 0.335 ^ 4 ≤ 1.4 ^ 4 := by gcongr
    _ ≤ _ := by norm_num

theorem mul_exp_neg_ge {t : ℝ} (h1 : 0.61 ≤ t) (h2 : t ≤ 1.34) : 0.33 ≤ t * Real.exp (-t) := by
  have h0 : (0 : ℝ) < 0.73 := by norm_num
  obtain ⟨_, hconv⟩ := convexOn_exp
  have hc := hconv (Set.mem_univ (0.61 : ℝ)) (Set.mem_univ (1.34 : ℝ))
    (a := (1.34 - t) / 0.73) (b := (t - 0.61) / 0.73) (div_nonneg (by linarith) h0.le)
    (div_nonneg (by linarith) h0.le) (by field_simp; norm_num)
  simp only [smul_eq_mul] at hc
  rw [show (1.34 - t) / 0.73 * 0.61 + (t - 0.61) / 0.73 * 1.34 = t by field_simp; ring] at hc
  have a1 := mul_le_mul_of_nonneg_left exp_61 (div_nonneg (by linarith : 0 ≤ 1.34 - t) h0.le)
  have a2 := mul_le_mul_of_nonneg_left exp_134 (div_nonneg (by linarith : 0 ≤ t - 0.61) h0.le)
  have h3 : Real.exp t * 0.33 ≤ t := by
    have e1 : (1.34 - t) / 0.73 * 1.845 = (1.34 - t) * (1.845 / 0.73) := by ring
    have e2 : (t - 0.61) / 0.73 * 3.8424 = (t - 0.61) * (3.8424 / 0.73) := by ring
    rw [e1] at a1
    rw [e2] at a2
    norm_num at *
    linarith
  rw [Real.exp_neg, ← div_eq_mul_inv, le_div_iff₀ (Real.exp_pos t)]
  linarith

theorem exp_neg_gap_ge {t : ℝ} (h1 : 0.61 ≤ t) (h2 : t ≤ 1.34) :
    0.19 ≤ Real.exp (-t) * (1 - Real.exp (-t)) := by
  have a1 : 0.26 ≤ Real.exp (-t) := by
    rw [Real.exp_neg, le_inv_comm₀ (by norm_num) (Real.exp_pos t)]
    have := (Real.exp_le_exp.2 h2).trans exp_134
    norm_num at this ⊢
    linarith
  have a2 : Real.exp (-t) ≤ 0.56 := by
    rw [Real.exp_neg, inv_le_comm₀ (Real.exp_pos t) (by norm_num)]
    have := (Real.quadratic_le_exp_of_nonneg (x := 0.61) (by norm_num)).trans (Real.exp_le_exp.2 h1)
    norm_num at this ⊢
    linarith
  generalize Real.exp (-t) = y at *
  norm_num at *
  nlinarith

theorem exp_le_pow_div {x : ℝ} (h1 : x < 1) (n : Nat) :
    Real.exp (-(n * (x / (1 - x)))) ≤ (1 - x) ^ n := by
  have h2 : Real.exp (-(x / (1 - x))) ≤ 1 - x := by
    rw [Real.exp_neg, inv_le_comm₀ (Real.exp_pos _) (by linarith)]
    have := Real.add_one_le_exp (x / (1 - x))
    have e : x / (1 - x) + 1 = (1 - x)⁻¹ := by
      have : (1 : ℝ) - x ≠ 0 := by linarith
      field_simp; ring
    linarith
  calc Real.exp (-(n * (x / (1 - x)))) = Real.exp (-(x / (1 - x))) ^ n := by
        rw [← Real.exp_nat_mul]; congr 1; ring
    _ ≤ _ := pow_le_pow_left₀ (Real.exp_pos _).le h2 n

/-- Below the threshold linear counting is used, except with an exponentially small probability. -/
theorem zeros_below_of (h1 : 8 ≤ p) (h2 : p ≤ 18) {g κ : ℝ} (hδ0 : 0 < δ)
    (hκ : 0 < κ) (hg : g ≤ threshold p / 2 ^ p * Real.exp (-(threshold p / 2 ^ p)))
    (hn : (n : ℝ) + 2 ≤ (1 - δ) * threshold p) :
    fraction (fun h : Fin n → Fin (2 ^ 64) => zeros 64 p (hashSet 64 h) < cutoff p) ≤
      2 * Real.exp (-(2 ^ p * δ ^ 2 * (κ * g - κ ^ 2 / 8 * Real.exp (κ * δ)))) := by
  obtain ⟨t1, t2⟩ := threshold_range8 h1 h2
  have hm := m_ge h1
  have hm0 : (0 : ℝ) < 2 ^ p := by linarith
  obtain ⟨q, hq⟩ : ∃ q : ℝ, q = (1 - 1 / 2 ^ p) ^ n := ⟨_, rfl⟩
  obtain ⟨t, ht⟩ : ∃ t : ℝ, t = threshold p / 2 ^ p := ⟨_, rfl⟩
  rw [← ht] at t1 t2 hg
  have hT : (threshold p : ℝ) = t * 2 ^ p := by rw [ht]; field_simp
  have hx1 : (1 : ℝ) / 2 ^ p < 1 := by rw [div_lt_one hm0]; linarith
  have hq1 : Real.exp (-((1 - δ) * t)) ≤ q := by
    rw [hq]
    refine le_trans (Real.exp_le_exp.2 (neg_le_neg ?_)) (exp_le_pow_div hx1 n)
    have e : (n : ℝ) * (1 / 2 ^ p / (1 - 1 / 2 ^ p)) = n / (2 ^ p - 1) := by
      have : (2 : ℝ) ^ p - 1 ≠ 0 := by linarith
      field_simp
    rw [e, div_le_iff₀ (by linarith)]
    rw [hT] at hn
    have : (1 - δ) * t ≤ 2 := by nlinarith
    nlinarith
  have hg : g * δ ≤ q - Real.exp (-t) := by
    have h3 : Real.exp (-((1 - δ) * t)) = Real.exp (-t) * Real.exp (δ * t) := by
      rw [← Real.exp_add]; congr 1; ring
    have h4 := Real.add_one_le_exp (δ * t)
    have h6 := mul_le_mul_of_nonneg_left h4 (Real.exp_pos (-t)).le
    have h7 : g * δ ≤ t * Real.exp (-t) * δ := by gcongr
    rw [h3] at hq1
    linarith
  have hq4 : q * (1 - q) ≤ 1 / 4 := by nlinarith [sq_nonneg (q - 1 / 2)]
  refine le_trans (fraction_mono fun h hh => ?_) ((zeros_tail (w := 64) (p := p) (n := n) (by omega) le_rfl hq
    (lam := κ * δ) (by positivity) (2 ^ p * (g * δ))).trans ?_)
  · by_contra hcon
    rw [not_le] at hcon
    refine absurd (cutoff_le_of (p := p) (V := zeros 64 p (hashSet 64 h)) (by omega) h2 ?_) (not_le.2 hh)
    rw [← ht]
    have h3 := (abs_lt.1 hcon).1
    have h4 := mul_le_mul_of_nonneg_left hg hm0.le
    rw [mul_sub] at h4
    linarith
  · refine mul_le_mul_of_nonneg_left (Real.exp_le_exp.2 ?_) (by norm_num)
    have h4 : (κ * δ) ^ 2 / 2 * Real.exp (κ * δ) * (q * (1 - q)) ≤ (κ * δ) ^ 2 / 2 * Real.exp (κ * δ) * (1 / 4) := by
      gcongr
    calc 2 ^ p * ((κ * δ) ^ 2 / 2 * Real.exp (κ * δ) * (q * (1 - q))) - κ * δ * (2 ^ p * (g * δ))
        ≤ 2 ^ p * ((κ * δ) ^ 2 / 2 * Real.exp (κ * δ) * (1 / 4)) - κ * δ * (2 ^ p * (g * δ)) := by gcongr
      _ = _ := by ring

/-- The same with one constant for all precisions. -/
theorem zeros_below (h1 : 8 ≤ p) (h2 : p ≤ 18) (hδ0 : 0 < δ) (hδ1 : δ ≤ 1)
    (hn : (n : ℝ) + 2 ≤ (1 - δ) * threshold p) :
    fraction (fun h : Fin n → Fin (2 ^ 64) => zeros 64 p (hashSet 64 h) < cutoff p) ≤
      2 * Real.exp (-(2 ^ p * δ ^ 2 / 10)) := by
  obtain ⟨t1, t2⟩ := threshold_range8 h1 h2
  refine (zeros_below_of h1 h2 (κ := 0.7) (g := 0.33) hδ0 (by norm_num) (mul_exp_neg_ge t1 t2) hn).trans ?_
  refine mul_le_mul_of_nonneg_left (Real.exp_le_exp.2 (neg_le_neg ?_)) (by norm_num)
  have he : Real.exp (0.7 * δ) ≤ 2.03 := by
    have h3 : Real.exp 0.7 ≤ 2.03 := by
      have h5 := exp_cubic (x := 0.35) (by norm_num)
      have h6 : Real.exp 0.35 ≤ 1.4215 := by norm_num at h5 ⊢; linarith
      have e : Real.exp 0.7 = Real.exp 0.35 ^ 2 := by rw [← Real.exp_nat_mul]; norm_num
      rw [e]
      calc Real.exp 0.35 ^ 2 ≤ 1.4215 ^ 2 := by gcongr
        _ ≤ _ := by norm_num
    refine le_trans (Real.exp_le_exp.2 ?_) h3
    nlinarith
  rw [div_eq_mul_inv]
  refine mul_le_mul_of_nonneg_left ?_ (by positivity)
  norm_num at he ⊢
  linarith

/-- Close to the threshold the bound is sharper; precision 16. -/
theorem zeros_below_16 (hδ0 : 0 < δ) (hδ1 : δ ≤ 1 / 50) (hn : (n : ℝ) + 2 ≤ (1 - δ) * 50000) :
    fraction (fun h : Fin n → Fin (2 ^ 64) => zeros 64 16 (hashSet 64 h) < cutoff 16) ≤
      2 * Real.exp (-(2 ^ 16 * δ ^ 2 * 0.243)) := by
  have ht : (threshold 16 : ℝ) = 50000 := by rw [show threshold 16 = 50000 from rfl]; norm_num
  have hg : 0.354 ≤ (threshold 16 : ℝ) / 2 ^ 16 * Real.exp (-(threshold 16 / 2 ^ 16)) := by
    rw [ht, Real.exp_neg, ← div_eq_mul_inv, le_div_iff₀ (Real.exp_pos _)]
    have h5 := exp_cubic (x := 0.3815) (by norm_num)
    have h6 : Real.exp 0.3815 ≤ 1.4679 := by norm_num at h5 ⊢; linarith
    have e : Real.exp 0.763 = Real.exp 0.3815 ^ 2 := by rw [← Real.exp_nat_mul]; norm_num
    have h7 : Real.exp (50000 / 2 ^ 16) ≤ Real.exp 0.763 := Real.exp_le_exp.2 (by norm_num)
    have h8 : Real.exp 0.3815 ^ 2 ≤ 1.4679 ^ 2 := by gcongr
    rw [e] at h7
    have h9 := h7.trans h8
    generalize Real.exp (50000 / 2 ^ 16) = y at *
    norm_num at h9 ⊢
    linarith
  refine (zeros_below_of (p := 16) (by norm_num) (by norm_num) (κ := 1.4) (g := 0.354) hδ0
    (by norm_num) hg (by rw [ht]; exact hn)).trans ?_
  refine mul_le_mul_of_nonneg_left (Real.exp_le_exp.2 (neg_le_neg ?_)) (by norm_num)
  have he : Real.exp (1.4 * δ) ≤ 1.03 := by
    have h5 := exp_cubic (x := 0.028) (by norm_num)
    refine le_trans (Real.exp_le_exp.2 (by linarith : 1.4 * δ ≤ 0.028)) ?_
    norm_num at h5 ⊢; linarith
  refine mul_le_mul_of_nonneg_left ?_ (by positivity)
  norm_num at he ⊢
  linarith

/-- Above the threshold it is not. -/
theorem zeros_above (h1 : 8 ≤ p) (h2 : p ≤ 18) (hδ0 : 0 < δ) (hδ1 : δ ≤ 1)
    (hn : (1 + δ) * threshold p ≤ (n : ℝ)) :
    fraction (fun h : Fin n → Fin (2 ^ 64) => cutoff p ≤ zeros 64 p (hashSet 64 h)) ≤
      2 * Real.exp (-(2 ^ p * δ ^ 2 / 22)) := by
  obtain ⟨t1, t2⟩ := threshold_range8 h1 h2
  have hm := m_ge h1
  have hm0 : (0 : ℝ) < 2 ^ p := by linarith
  obtain ⟨q, hq⟩ : ∃ q : ℝ, q = (1 - 1 / 2 ^ p) ^ n := ⟨_, rfl⟩
  obtain ⟨t, ht⟩ : ∃ t : ℝ, t = threshold p / 2 ^ p := ⟨_, rfl⟩
  rw [← ht] at t1 t2
  have hT : (threshold p : ℝ) = t * 2 ^ p := by rw [ht]; field_simp
  have hq1 : q ≤ Real.exp (-((1 + δ) * t)) := by
    rw [hq]
    refine (q_upper h1).trans (Real.exp_le_exp.2 (neg_le_neg ?_))
    rw [le_div_iff₀ hm0]
    rw [hT] at hn
    linarith
  have hg : 0.19 * δ ≤ Real.exp (-t) - q := by
    have h3 : Real.exp (-((1 + δ) * t)) = Real.exp (-t) * Real.exp (-(δ * t)) := by
      rw [← Real.exp_add]; congr 1; ring
    obtain ⟨_, hconv⟩ := convexOn_exp
    have hc := hconv (Set.mem_univ (0 : ℝ)) (Set.mem_univ (-t))
      (a := 1 - δ) (b := δ) (by linarith) hδ0.le (by ring)
    simp only [smul_eq_mul, mul_zero, zero_add, Real.exp_zero, mul_one] at hc
    rw [show δ * -t = -(δ * t) by ring] at hc
    have h5 := exp_neg_gap_ge t1 t2
    have h6 := mul_le_mul_of_nonneg_left hc (Real.exp_pos (-t)).le
    have h7 : 0.19 * δ ≤ Real.exp (-t) * (1 - Real.exp (-t)) * δ := by gcongr
    rw [h3] at hq1
    linarith
  have hq4 : q * (1 - q) ≤ 1 / 4 := by nlinarith [sq_nonneg (q - 1 / 2)]
  refine le_trans (fraction_mono fun h hh => ?_) ((zeros_tail (w := 64) (p := p) (n := n) (by omega) le_rfl hq
    (lam := 0.4 * δ) (by positivity) (2 ^ p * (0.19 * δ))).trans ?_)
  · by_contra hcon
    rw [not_le] at hcon
    refine absurd (lt_cutoff_of (p := p) (V := zeros 64 p (hashSet 64 h)) (by omega) h2 ?_) (not_lt.2 hh)
    rw [← ht]
    have h3 := (abs_lt.1 hcon).2
    have h4 := mul_le_mul_of_nonneg_left hg hm0.le
    rw [mul_sub] at h4
    linarith
  · refine mul_le_mul_of_nonneg_left (Real.exp_le_exp.2 ?_) (by norm_num)
    have he : Real.exp (0.4 * δ) ≤ 1.5 := by
      have h3 : Real.exp 0.4 ≤ 1.5 := by
        have h5 := exp_cubic (x := 0.4) (by norm_num)
        norm_num at h5 ⊢; linarith
      refine le_trans (Real.exp_le_exp.2 ?_) h3
      nlinarith
    have h4 : (0.4 * δ) ^ 2 / 2 * Real.exp (0.4 * δ) * (q * (1 - q)) ≤ (0.4 * δ) ^ 2 / 2 * 1.5 * (1 / 4) := by
      have : (0.4 * δ) ^ 2 / 2 * Real.exp (0.4 * δ) ≤ (0.4 * δ) ^ 2 / 2 * 1.5 := by gcongr
      calc _ ≤ (0.4 * δ) ^ 2 / 2 * Real.exp (0.4 * δ) * (1 / 4) := by gcongr
        _ ≤ _ := by gcongr
    calc 2 ^ p * ((0.4 * δ) ^ 2 / 2 * Real.exp (0.4 * δ) * (q * (1 - q))) - 0.4 * δ * (2 ^ p * (0.19 * δ))
        ≤ 2 ^ p * ((0.4 * δ) ^ 2 / 2 * 1.5 * (1 / 4)) - 0.4 * δ * (2 ^ p * (0.19 * δ)) := by gcongr
      _ = 2 ^ p * δ ^ 2 * (0.4 ^ 2 / 2 * 1.5 / 4 - 0.4 * 0.19) := by ring
      _ ≤ 2 ^ p * δ ^ 2 * (-(1 / 22)) := by gcongr; norm_num
      _ = _ := by ring

/-- Some register is empty after few values. -/
theorem zeros_pos (h1 : 8 ≤ p) (hp : p ≤ w) (hw : w ≤ 64) (hn : n ≤ 2 * 2 ^ p) :
    fraction (fun h : Fin n → Fin (2 ^ 64) => zeros w p (hashSet w h) = 0) ≤ 2 * Real.exp (-(2 ^ p / 30)) := by
  have hm := m_ge h1
  have hm0 : (0 : ℝ) < 2 ^ p := by linarith
  obtain ⟨q, hq⟩ : ∃ q : ℝ, q = (1 - 1 / 2 ^ p) ^ n := ⟨_, rfl⟩
  have hl2 : (n : ℝ) / 2 ^ p ≤ 2 := by rw [div_le_iff₀ hm0]; exact_mod_cast hn
  have hq0 : 0.13 ≤ q := by
    have h3 := q_lower (n := n) h1
    have h4 : Real.exp (-2) ≤ Real.exp (-((n : ℝ) / 2 ^ p)) := Real.exp_le_exp.2 (by linarith)
    have h5 : (0.135 : ℝ) ≤ Real.exp (-2) := by
      rw [Real.exp_neg, le_inv_comm₀ (by norm_num) (Real.exp_pos _)]
      have e : Real.exp 2 = Real.exp 1 ^ 2 := by rw [← Real.exp_nat_mul]; norm_num
      rw [e]
      calc Real.exp 1 ^ 2 ≤ 2.7182818286 ^ 2 := by have := Real.exp_one_lt_d9.le; gcongr
        _ ≤ _ := by norm_num
    have h6 : (n : ℝ) / 2 ^ p / 2 ^ p ≤ 2 / 256 := by gcongr
    rw [← hq] at h3
    have h7 : (0.135 : ℝ) * (1 - 2 / 256) ≤ Real.exp (-((n : ℝ) / 2 ^ p)) * (1 - n / 2 ^ p / 2 ^ p) := by
      refine mul_le_mul (h5.trans h4) (by linarith) (by norm_num) (Real.exp_pos _).le
    norm_num at h7 ⊢
    linarith
  have hq1 : q ≤ 1 := by
    rw [hq]
    refine pow_le_one₀ ?_ (by linarith [show (0 : ℝ) ≤ 1 / 2 ^ p by positivity])
    rw [sub_nonneg, div_le_one hm0]; linarith
  refine le_trans (fraction_mono fun h hh => ?_) ((zeros_tail (w := w) (p := p) (n := n) hp hw hq
    (lam := 0.5) (by norm_num) (2 ^ p * q)).trans ?_)
  · rw [hh, Nat.cast_zero, zero_sub, abs_neg, abs_of_nonneg (by positivity)]
  · refine mul_le_mul_of_nonneg_left (Real.exp_le_exp.2 ?_) (by norm_num)
    have he : Real.exp 0.5 ≤ 1.7 := by
      have h5 := exp_cubic (x := 0.5) (by norm_num)
      norm_num at h5 ⊢; linarith
    have h4 : (0.5 : ℝ) ^ 2 / 2 * Real.exp 0.5 * (q * (1 - q)) ≤ 0.5 ^ 2 / 2 * 1.7 * (q * 1) := by
      have : (0 : ℝ) ≤ q := by linarith
      gcongr
      · linarith
    calc 2 ^ p * ((0.5 : ℝ) ^ 2 / 2 * Real.exp 0.5 * (q * (1 - q))) - 0.5 * (2 ^ p * q)
        ≤ 2 ^ p * (0.5 ^ 2 / 2 * 1.7 * (q * 1)) - 0.5 * (2 ^ p * q) := by gcongr
      _ = 2 ^ p * (q * (0.5 ^ 2 / 2 * 1.7 - 0.5)) := by ring
      _ ≤ 2 ^ p * (0.13 * (0.5 ^ 2 / 2 * 1.7 - 0.5)) := by
        refine mul_le_mul_of_nonneg_left ?_ hm0.le
        refine mul_le_mul_of_nonpos_right hq0 (by norm_num)
      _ ≤ 2 ^ p * (-(1 / 30)) := by gcongr; norm_num
      _ = _ := by ring

end HLL
