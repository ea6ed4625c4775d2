import Mathlib.Analysis.SpecialFunctions.Log.Deriv
import Verif.Props.RawAccuracy

/-!
# C53: the large range correction of `HyperLogLogPF` overestimates

As in C42 every assignment `h : Fin n → Fin (2^64)` of hashes to the values `0, …, n-1` is equally
likely.
-/

namespace HLL
open Spec F64

theorem neg_log_ge {x : ℝ} (h0 : 0 ≤ x) (h1 : x < 1) :
    x + x ^ 2 / 2 + x ^ 3 / 3 ≤ -Real.log (1 - x) := by
  have h := Real.hasSum_pow_div_log_of_abs_lt_one (x := x) (by rw [abs_of_nonneg h0]; exact h1)
  have h2 := sum_le_hasSum (Finset.range 3) (fun i _ => by positivity) h
  simp only [Finset.sum_range_succ, Finset.sum_range_zero] at h2
  norm_num at h2
  linarith

/-- The large range correction adds at least the next two terms of the series. -/
theorem largeRange_more {ln : F64 → F64} (hln : LnSpec ln) {q : ℚ} (hq : rnd q = q)
    (h1 : 2 ^ 32 / 31 ≤ q) (h2 : q < 2 ^ 32) :
    ∃ y : ℚ, mul (mul (neg (num 1)) (num (2 ^ 32)))
        (ln (sub (num 1) (div (fin q) (num (2 ^ 32))))) = fin y ∧
      2 ^ 32 * ((q / 2 ^ 32 : ℝ) + (q / 2 ^ 32) ^ 2 / 2 + (q / 2 ^ 32) ^ 3 / 3) *
        (1 - 1 / 2 ^ 38) ≤ (y : ℝ) := by
  obtain ⟨y, k1, k2, k3, k4, k5, k6⟩ := largeRange_lt hln hq h1 h2
  refine ⟨_, k1, ?_⟩
  have hx1 : 1 / 31 ≤ q / 2 ^ 32 := by
    rw [le_div_iff₀ (by norm_num)]; linarith
  have hlt : q / 2 ^ 32 < 1 := by rw [div_lt_one (by norm_num)]; exact h2
  have hqx : (q : ℝ) / 2 ^ 32 = ((q / 2 ^ 32 : ℚ) : ℝ) := by push_cast; rfl
  rw [hqx]
  have herr := rnd_err' (1 - q / 2 ^ 32)
  generalize q / 2 ^ 32 = x at *
  rw [abs_of_pos (by linarith : 0 < 1 - x)] at herr
  have hz : rnd (1 - x) ≤ 1 - x + 1 / 2 ^ 52 := by
    have := (abs_le.1 herr).2
    norm_num at this ⊢
    linarith
  generalize rnd (1 - x) = z at *
  have hzR0 : (0 : ℝ) < z := by exact_mod_cast k4
  have hzR1 : (z : ℝ) ≤ 127 / 128 := by
    have := (Rat.cast_le (K := ℝ)).2 k5
    push_cast at this; exact this
  have hzx : (z : ℝ) ≤ 1 - x + 1 / 2 ^ 52 := by
    have := (Rat.cast_le (K := ℝ)).2 hz
    push_cast at this; exact this
  have hxR : (1 / 31 : ℝ) ≤ x := by
    have := (Rat.cast_le (K := ℝ)).2 hx1
    push_cast at this; exact this
  have hu : (x : ℝ) * (1 - 1 / 2 ^ 46) ≤ 1 - z := by norm_num at hzx ⊢; linarith
  have hu0 : (0 : ℝ) ≤ x * (1 - 1 / 2 ^ 46) := by norm_num; linarith
  have hs := neg_log_ge (x := 1 - z) (by linarith) (by linarith)
  rw [sub_sub_cancel] at hs
  -- the real logarithm
  have hL : ((x : ℝ) + x ^ 2 / 2 + x ^ 3 / 3) * (1 - 1 / 2 ^ 46) ^ 3 ≤ -Real.log z := by
    refine le_trans ?_ hs
    have p2 := pow_le_pow_left₀ hu0 hu 2
    have p3 := pow_le_pow_left₀ hu0 hu 3
    rw [mul_pow] at p2 p3
    have hx0 : (0 : ℝ) ≤ x := by linarith
    have c1 : (1 - 1 / 2 ^ 46 : ℝ) ^ 3 ≤ 1 - 1 / 2 ^ 46 := by norm_num
    have c2 : (1 - 1 / 2 ^ 46 : ℝ) ^ 3 ≤ (1 - 1 / 2 ^ 46) ^ 2 := by norm_num
    have t1 : (x : ℝ) * (1 - 1 / 2 ^ 46) ^ 3 ≤ x * (1 - 1 / 2 ^ 46) :=
      mul_le_mul_of_nonneg_left c1 hx0
    have t2 : (x : ℝ) ^ 2 * (1 - 1 / 2 ^ 46) ^ 3 ≤ x ^ 2 * (1 - 1 / 2 ^ 46) ^ 2 :=
      mul_le_mul_of_nonneg_left c2 (by positivity)
    linarith
  have hxx : (0 : ℝ) ≤ x + x ^ 2 / 2 + x ^ 3 / 3 := by
    have hx0 : (0 : ℝ) ≤ x := by linarith
    positivity
  generalize (x : ℝ) + x ^ 2 / 2 + x ^ 3 / 3 = A at *
  have hy : A * (1 - 1 / 2 ^ 39) ≤ -y := by
    have := (abs_le.1 k6).2
    generalize Real.log z = l at *
    have h5 : A * (1 - 1 / 2 ^ 46) ^ 3 * (1 - 1 / 2 ^ 40) ≤ -l * (1 - 1 / 2 ^ 40) :=
      mul_le_mul_of_nonneg_right hL (by norm_num)
    have h6 : (1 - 1 / 2 ^ 39 : ℝ) ≤ (1 - 1 / 2 ^ 46) ^ 3 * (1 - 1 / 2 ^ 40) := by norm_num
    have h7 := mul_le_mul_of_nonneg_left h6 hxx
    linarith
  have hr := rnd_err' (-(2 ^ 32) * y)
  rw [abs_of_pos (a := -(2 ^ 32) * y) (by linarith)] at hr
  have hr1 := (abs_le.1 hr).1
  have hr2 : -(2 ^ 32) * y * (1 - 1 / 2 ^ 50) ≤ rnd (-(2 ^ 32) * y) := by
    norm_num at hr1 k2 ⊢; linarith
  have hr3 := (Rat.cast_le (K := ℝ)).2 hr2
  push_cast at hr3
  refine le_trans ?_ hr3
  have h8 : A * (1 - 1 / 2 ^ 38) ≤ A * (1 - 1 / 2 ^ 39) * (1 - 1 / 2 ^ 50) := by
    rw [mul_assoc]
    exact mul_le_mul_of_nonneg_left (by norm_num) hxx
  have h9 := mul_le_mul_of_nonneg_right hy (by norm_num : (0 : ℝ) ≤ 1 - 1 / 2 ^ 50)
  have h10 := mul_le_mul_of_nonneg_left (h8.trans h9) (by norm_num : (0 : ℝ) ≤ 2 ^ 32)
  linarith

/-- A raw estimate between `2^32/30` and `2^32` is corrected. -/
theorem pfCount_large {ln : F64 → F64} {p : Nat} (hp1 : 4 ≤ p) (hp2 : p ≤ 16) {S : Finset Nat}
    (h1 : 2 ^ 32 / 29 < rawQ p (hsum 0 (regs 32 p S))) :
    pfCount ln p S = mul (mul (neg (num 1)) (num (2 ^ 32)))
      (ln (sub (num 1) (div (fin (rawQ p (hsum 0 (regs 32 p S)))) (num (2 ^ 32))))) := by
  have hm : (2 : ℚ) ^ p ≤ 2 ^ 16 := pow_le_pow_right₀ (by norm_num) hp2
  rcases pfRegime_cases ln hp1 hp2 S with ⟨_, a, _⟩ | ⟨_, ⟨_, a, _⟩ | ⟨_, _, a⟩⟩
  · exfalso
    norm_num at h1 hm; linarith
  · exfalso
    obtain ⟨t, ht, _, ht2⟩ := pf_large
    rw [ht] at a
    have : gt (fin (rawQ p (hsum 0 (regs 32 p S)))) (fin t) = true := by
      rw [gt_fin]; linarith
    rw [this] at a; cases a
  · exact a

/-- The centre of the raw estimate for 32-bit hashes and up to `2^31` values. -/
theorem centre_large {p n : Nat} (hp1 : 4 ≤ p) (hp2 : p ≤ 16) (h5 : 5 * 2 ^ p ≤ n) (hn : n ≤ 2 ^ 31) :
    (1 - 0.0004 - 0.2311 * (n / 2 ^ 32) ^ 2 - 1.1 / 2 ^ p) * n ≤ centre 32 p n ∧
      centre 32 p n ≤ 1.0006 * n ∧ relVar 32 p n ≤ 1.12 + 4 / 2 ^ p := by
  have hm : (16 : ℝ) ≤ 2 ^ p := by
    calc (16 : ℝ) = 2 ^ 4 := by norm_num
      _ ≤ 2 ^ p := pow_le_pow_right₀ (by norm_num) hp1
  have hm0 : (0 : ℝ) < 2 ^ p := by linarith
  have h5' : 5 * (2 : ℝ) ^ p ≤ n := by exact_mod_cast h5
  have hn' : (n : ℝ) ≤ 2 ^ 31 := by exact_mod_cast hn
  have hn0 : (0 : ℝ) < n := by linarith
  have hn5 : 5 ≤ n := by
    have : 1 ≤ 2 ^ p := Nat.one_le_two_pow
    omega
  have hu : (n : ℝ) / 2 ^ p / 2 ^ (32 - p + 1) = n / 2 ^ 32 / 2 := by
    rw [div_div, div_div, ← pow_add, ← pow_succ]; congr 2; omega
  have hx : (n : ℝ) / 2 ^ 32 ≤ 1 / 2 := by
    rw [div_le_div_iff₀ (by positivity) (by norm_num)]; linarith
  have hx0 : 0 ≤ (n : ℝ) / 2 ^ 32 := by positivity
  have hl : 5 ≤ (n : ℝ) / 2 ^ p := by rw [le_div_iff₀ hm0]; exact h5'
  obtain ⟨b1, b2, b3⟩ := Osc.G_bounds (L := 32 - p + 1) (u := n / 2 ^ p) (by linarith) (by
    have h1 : (n : ℝ) / 2 ^ p / 2 ^ (32 - p + 1) ≤ 1 := by rw [hu]; linarith
    rwa [div_le_one (by positivity)] at h1)
  rw [hu] at b2 b3
  have hg := g_ten (u := 2 * (n / 2 ^ p)) (by linarith)
  have hx3 : ((n : ℝ) / 2 ^ 32 / 2) ^ 3 ≤ (1 / 4) ^ 3 := pow_le_pow_left₀ (by positivity) (by linarith) 3
  obtain ⟨c1, c2, c3⟩ := centre_bounds (w := 32) hp1 (by omega) hn5 (a := 1.4418)
    (b := 1.4431 + (n / 2 ^ 32) ^ 2 / 3) (c := 1.4613)
    (by norm_num) (by norm_num at b1 hg ⊢; linarith)
    (b2.trans (le_of_eq (by ring)))
    (by norm_num at b3 hx3 ⊢; linarith)
  obtain ⟨a1, a2⟩ := alpha_near hp1 (by omega : p ≤ 18)
  have hy : 1 - 0.868 / 2 ^ p ≤ 1 - 4.34 / (n : ℝ) := by
    have : 4.34 / (n : ℝ) ≤ 0.868 / 2 ^ p := by
      rw [div_le_div_iff₀ hn0 hm0]; norm_num; linarith
    linarith
  have hy0 : 0 < 1 - 0.868 / (2 : ℝ) ^ p := by
    have : 0.868 / (2 : ℝ) ^ p ≤ 0.868 / 16 := by gcongr
    norm_num at this ⊢; linarith
  refine ⟨le_trans ?_ c1, c2.trans ?_, c3.trans ?_⟩
  · rw [le_div_iff₀ (by positivity)]
    have h1 : 1.4426 * (1 - 1.1 / 2 ^ p) ≤ 2 * (alphaQ p : ℝ) := by
      norm_num at a1 ⊢; linarith
    have h2 : (1 - 0.0004 - 0.2311 * ((n : ℝ) / 2 ^ 32) ^ 2 - 1.1 / (2 : ℝ) ^ p) *
        (1.4431 + (n / 2 ^ 32) ^ 2 / 3) ≤ 1.4426 * (1 - 1.1 / 2 ^ p) := by
      have h3 : 0 ≤ 1.1 / (2 : ℝ) ^ p := by positivity
      generalize (n : ℝ) / 2 ^ 32 = x at *
      generalize 1.1 / (2 : ℝ) ^ p = z at *
      have hxx : 0 ≤ x ^ 2 := sq_nonneg x
      generalize x ^ 2 = X at *
      have := mul_nonneg h3 hxx
      have := mul_nonneg hxx hxx
      norm_num at *
      nlinarith
    calc _ = (1 - 0.0004 - 0.2311 * ((n : ℝ) / 2 ^ 32) ^ 2 - 1.1 / (2 : ℝ) ^ p) *
        (1.4431 + (n / 2 ^ 32) ^ 2 / 3) * n := by ring
      _ ≤ 2 * alphaQ p * n := mul_le_mul_of_nonneg_right (h2.trans h1) hn0.le
  · rw [div_le_iff₀ (by have : 0 < 1 - 4.34 / (n : ℝ) := by linarith
                        positivity)]
    have h1 : 2 * (alphaQ p : ℝ) ≤ 1.4426 * (1 - 1.06 / 2 ^ p) := by norm_num at a2 ⊢; linarith
    have h2 : 1.4426 * (1 - 1.06 / (2 : ℝ) ^ p) ≤ 1.0006 * (1.4418 * (1 - 0.868 / 2 ^ p)) := by
      have : 0 ≤ 1 / (2 : ℝ) ^ p := by positivity
      have e1 : 1.06 / (2 : ℝ) ^ p = 1.06 * (1 / 2 ^ p) := by ring
      have e2 : 0.868 / (2 : ℝ) ^ p = 0.868 * (1 / 2 ^ p) := by ring
      rw [e1, e2]
      generalize 1 / (2 : ℝ) ^ p = z at *
      norm_num; linarith
    calc 2 * (alphaQ p : ℝ) * n ≤ 1.0006 * (1.4418 * (1 - 0.868 / 2 ^ p)) * n :=
          mul_le_mul_of_nonneg_right (h1.trans h2) hn0.le
      _ ≤ 1.0006 * (1.4418 * (1 - 4.34 / (n : ℝ))) * n := by gcongr
      _ = _ := by ring
  · have h1 : 3 * 1.4613 / (1.4418 * (1 - 4.34 / (n : ℝ))) ^ 2 ≤
        3 * 1.4613 / (1.4418 * (1 - 0.868 / 2 ^ p)) ^ 2 := by gcongr
    have h2 : 3 * 1.4613 / (1.4418 * (1 - 0.868 / (2 : ℝ) ^ p)) ^ 2 ≤ 2.12 + 4 / 2 ^ p := by
      rw [div_le_iff₀ (by positivity)]
      have e1 : 4 / (2 : ℝ) ^ p = 4 * (1 / 2 ^ p) := by ring
      have e2 : 0.868 / (2 : ℝ) ^ p = 0.868 * (1 / 2 ^ p) := by ring
      have hz : 1 / (2 : ℝ) ^ p ≤ 1 / 16 := by gcongr
      have hz0 : 0 ≤ 1 / (2 : ℝ) ^ p := by positivity
      rw [e1, e2]
      generalize 1 / (2 : ℝ) ^ p = z at *
      norm_num
      nlinarith [mul_nonneg hz0 hz0, mul_nonneg hz0 (mul_nonneg hz0 hz0), mul_nonneg hz0 (sub_nonneg.2 hz)]
    norm_num at h1 h2 ⊢
    linarith

/-- The arithmetic of C53: `x` is the cardinality and `C` the raw estimate, as fractions of `2^32`. -/
theorem large_arith {x d C : ℝ} (hx0 : 0 ≤ x) (hx1 : x ≤ 1 / 2) (hd0 : 0 ≤ d) (hε : d ≤ 0.16)
    (hdx : 0.0005 + 0.2311 * x ^ 2 ≤ d) (hc : x * (1 - d) ≤ C) :
    x * (1 + 0.45 * x - 2 * (d - 0.0005 - 0.2311 * x ^ 2 + 0.001)) ≤
      (C + C ^ 2 / 2 + C ^ 3 / 3) * (1 - 1 / 2 ^ 38) := by
  have hxx : x ^ 2 ≤ 1 / 4 := by nlinarith
  have hxx0 : 0 ≤ x ^ 2 := sq_nonneg _
  have hcn : 0 ≤ x * (1 - d) := mul_nonneg hx0 (by norm_num at hε ⊢; linarith)
  have p2 := pow_le_pow_left₀ hcn hc 2
  have p3 := pow_le_pow_left₀ hcn hc 3
  have hsum : x * (1 - d) + (x * (1 - d)) ^ 2 / 2 + (x * (1 - d)) ^ 3 / 3 ≤ C + C ^ 2 / 2 + C ^ 3 / 3 := by
    linarith
  refine le_trans ?_ (mul_le_mul_of_nonneg_right hsum (by norm_num))
  have q2 : 1 - 2 * d ≤ (1 - d) ^ 2 := by nlinarith
  have q3 : 1 - 3 * d ≤ (1 - d) ^ 3 := by
    have := one_add_mul_le_pow (a := -d) (by norm_num at hε ⊢; linarith) 3
    refine le_trans (le_of_eq ?_) (this.trans (le_of_eq ?_)) <;> push_cast <;> ring
  have e3 : x * (1 - d) + (x * (1 - d)) ^ 2 / 2 + (x * (1 - d)) ^ 3 / 3 =
      x * ((1 - d) + x * (1 - d) ^ 2 / 2 + x ^ 2 * (1 - d) ^ 3 / 3) := by ring
  rw [e3, mul_assoc]
  refine mul_le_mul_of_nonneg_left ?_ hx0
  have t2 := mul_le_mul_of_nonneg_left q2 hx0
  have t3 := mul_le_mul_of_nonneg_left q3 hxx0
  have hA : 1 - d + x * (1 - 2 * d) / 2 + x ^ 2 * (1 - 3 * d) / 3 ≤
      (1 - d) + x * (1 - d) ^ 2 / 2 + x ^ 2 * (1 - d) ^ 3 / 3 := by linarith
  refine le_trans ?_ (mul_le_mul_of_nonneg_right hA (by norm_num))
  have hB : 1 - d + x * (1 - 2 * d) / 2 + x ^ 2 * (1 - 3 * d) / 3 ≤ 2 := by
    nlinarith
  have hC : 1 + 0.45 * x - 2 * (d - 0.0005 - 0.2311 * x ^ 2 + 0.001) + 1 / 2 ^ 37 ≤
      1 - d + x * (1 - 2 * d) / 2 + x ^ 2 * (1 - 3 * d) / 3 := by
    have hdd : 0 ≤ d - 0.0005 - 0.2311 * x ^ 2 := by linarith
    have u1 := mul_le_mul_of_nonneg_left hx1 hd0
    have u2 := mul_le_mul_of_nonneg_left hxx hd0
    norm_num at *
    nlinarith
  generalize 1 - d + x * (1 - 2 * d) / 2 + x ^ 2 * (1 - 3 * d) / 3 = B at *
  have : B * (1 - 1 / 2 ^ 38) = B - B / 2 ^ 38 := by ring
  rw [this]
  norm_num at hC ⊢
  linarith

variable {cfg : Cfg} {ln : F64 → F64} {ords : Nat → IterOrder × IterOrder} {p n : Nat}

/-- **C53.** Insert `n` values with random hashes, `2^32/20 ≤ n ≤ 2^31`, into a fresh
`HyperLogLogPF` with `m = 2^p` registers and call `count`.  Let `ε = δ + 1.1/m + 0.001 ≤ 1/10`.  Then
the result is at least `(1 + 0.45 n/2^32 - 2 ε) n`, except with probability at most
`(1.12 + 4/m) (1 + δ)² / (m δ²)`.  The raw estimate is within `6 % + ε` of `n` (`centre_large`); the
correction for large cardinalities makes it too large, by `22 % - 2 ε` for `n = 2^31`. -/
theorem C53_pf_overestimates (hln : LnSpec ln) (hcfg : cfg.usizeBits = 64)
    (c : Serde.Codec (Fin n)) (h1 : 4 ≤ p) (h2 : p ≤ 16) {δ : ℝ} (hδ0 : 0 < δ)
    (hδ : δ + 1.1 / 2 ^ p + 0.001 ≤ 1 / 10) (hn1 : 2 ^ 32 / 20 ≤ (n : ℝ)) (hn2 : n ≤ 2 ^ 31) :
    fraction (fun h : Fin n → Fin (2 ^ 64) => ¬ ∃ y : ℚ,
        later (PF.api cfg ln c) ords (insertAll p h) [.count 0] = .ok [.count (fin y)] ∧
        (1 + 0.45 * (n / 2 ^ 32) - 2 * (δ + 1.1 / 2 ^ p + 0.001)) * n ≤ y) ≤
      (1.12 + 4 / 2 ^ p) * (1 + δ) ^ 2 / (2 ^ p * δ ^ 2) := by
  have hm : (2 : ℝ) ^ p ≤ 2 ^ 16 := pow_le_pow_right₀ (by norm_num) h2
  have h5 : 5 * 2 ^ p ≤ n := by
    have : 5 * (2 : ℝ) ^ p ≤ n := by norm_num at hm hn1; linarith
    exact_mod_cast this
  obtain ⟨c1, c2, c3⟩ := centre_large h1 h2 h5 hn2
  refine le_trans (fraction_mono fun h hh => ?_)
    ((raw_deviation (w := 32) (p := p) n (by omega) (by omega) (by omega) hδ0).trans (by gcongr))
  by_contra hcon
  rw [not_le] at hcon
  apply hh
  have h3 := raw_good h1 (by omega) hδ0 (by omega) hcon
  have hn0 : (0 : ℝ) < n := by norm_num at hn1; linarith
  have hn2' : (n : ℝ) ≤ 2 ^ 31 := by exact_mod_cast hn2
  have hc0 := centre_pos (w := 32) (n := n) h1 (by omega)
  have hs : Supported cfg c (insertAll p h) := supported64 hcfg c (by simp [insertAll])
  rw [pf_count_val hs (contents_insertAll h1 h2 h)]
  have hz : 0 ≤ 1.1 / (2 : ℝ) ^ p := by positivity
  have hx0 : 0 ≤ (n : ℝ) / 2 ^ 32 := by positivity
  have hx1 : (n : ℝ) / 2 ^ 32 ≤ 1 / 2 := by
    rw [div_le_div_iff₀ (by positivity) (by norm_num)]; linarith
  have hxx : ((n : ℝ) / 2 ^ 32) ^ 2 ≤ 1 / 4 := by nlinarith
  have hxx0 : 0 ≤ ((n : ℝ) / 2 ^ 32) ^ 2 := sq_nonneg _
  obtain ⟨r1, r2⟩ := abs_le.1 h3
  -- the raw estimate
  have hlow : (1 - (δ + 1.1 / 2 ^ p + 0.0005 + 0.2311 * (n / 2 ^ 32) ^ 2)) * n ≤
      (rawQ p (hsum 0 (regs 32 p (hashSet 32 h))) : ℝ) := by
    have h4 : (1 - (δ + 1 / 2 ^ 31)) * centre 32 p n ≤
        (rawQ p (hsum 0 (regs 32 p (hashSet 32 h))) : ℝ) := by
      have : (1 + δ) / 2 ^ 32 ≤ (1 : ℝ) / 2 ^ 31 := by norm_num at hδ ⊢; linarith
      have := mul_le_mul_of_nonneg_right this hc0.le
      linarith
    refine le_trans ?_ h4
    have h5 : (0 : ℝ) ≤ 1 - (δ + 1 / 2 ^ 31) := by norm_num at hδ ⊢; linarith
    refine le_trans ?_ (mul_le_mul_of_nonneg_left c1 h5)
    rw [← mul_assoc]
    refine mul_le_mul_of_nonneg_right ?_ hn0.le
    have h6 : 0 ≤ (δ + 1 / 2 ^ 31) * (0.0004 + 0.2311 * ((n : ℝ) / 2 ^ 32) ^ 2 + 1.1 / 2 ^ p) := by
      positivity
    norm_num at h6 ⊢
    linarith
  have hhigh : (rawQ p (hsum 0 (regs 32 p (hashSet 32 h))) : ℝ) < 2 ^ 32 := by
    have h4 : (δ + (1 + δ) / 2 ^ 32) * centre 32 p n ≤ 0.2 * centre 32 p n := by
      refine mul_le_mul_of_nonneg_right ?_ hc0.le
      norm_num at hδ ⊢; linarith
    norm_num at hn2' c2 h4 ⊢; linarith
  have hε : δ + 1.1 / 2 ^ p + 0.0005 + 0.2311 * ((n : ℝ) / 2 ^ 32) ^ 2 ≤ 0.16 := by
    norm_num at hδ hxx ⊢; linarith
  have hq1 : 2 ^ 32 / 29 < rawQ p (hsum 0 (regs 32 p (hashSet 32 h))) := by
    have : 2 ^ 32 / 29 < (rawQ p (hsum 0 (regs 32 p (hashSet 32 h))) : ℝ) := by
      refine lt_of_lt_of_le ?_ hlow
      have : 0.84 * (n : ℝ) ≤ (1 - (δ + 1.1 / 2 ^ p + 0.0005 + 0.2311 * (n / 2 ^ 32) ^ 2)) * n := by
        refine mul_le_mul_of_nonneg_right ?_ hn0.le
        norm_num at hε ⊢; linarith
      refine lt_of_lt_of_le ?_ this
      norm_num at hn1 ⊢; linarith
    have h6 : ((2 ^ 32 / 29 : ℚ) : ℝ) < (rawQ p (hsum 0 (regs 32 p (hashSet 32 h))) : ℝ) := by
      push_cast; exact this
    exact_mod_cast h6
  have hq2 : rawQ p (hsum 0 (regs 32 p (hashSet 32 h))) < 2 ^ 32 := by exact_mod_cast hhigh
  rw [pfCount_large h1 h2 hq1]
  have hqr : rnd (rawQ p (hsum 0 (regs 32 p (hashSet 32 h)))) =
      rawQ p (hsum 0 (regs 32 p (hashSet 32 h))) := rnd_rnd _
  obtain ⟨y, e1, e2⟩ := largeRange_more hln hqr (le_trans (by norm_num) hq1.le) hq2
  refine ⟨y, by rw [e1], le_trans ?_ e2⟩
  -- arithmetic
  obtain ⟨d, hd⟩ : ∃ d, d = δ + 1.1 / 2 ^ p + 0.0005 + 0.2311 * ((n : ℝ) / 2 ^ 32) ^ 2 := ⟨_, rfl⟩
  rw [← hd] at hlow hε
  have hd0 : 0 ≤ d := by rw [hd]; positivity
  have hc : (n : ℝ) / 2 ^ 32 * (1 - d) ≤ (rawQ p (hsum 0 (regs 32 p (hashSet 32 h))) : ℝ) / 2 ^ 32 := by
    rw [le_div_iff₀ (by positivity)]
    refine le_trans (le_of_eq ?_) hlow
    field_simp
  have hgoal : (1 + 0.45 * ((n : ℝ) / 2 ^ 32) - 2 * (δ + 1.1 / 2 ^ p + 0.001)) * n =
      2 ^ 32 * ((n / 2 ^ 32) * (1 + 0.45 * ((n : ℝ) / 2 ^ 32) - 2 * (δ + 1.1 / 2 ^ p + 0.001))) := by
    field_simp
  rw [hgoal, mul_assoc]
  refine mul_le_mul_of_nonneg_left ?_ (by positivity)
  have hε' : δ + 1.1 / 2 ^ p = d - 0.0005 - 0.2311 * ((n : ℝ) / 2 ^ 32) ^ 2 := by rw [hd]; ring
  rw [hε']
  have hdx : 0.0005 + 0.2311 * ((n : ℝ) / 2 ^ 32) ^ 2 ≤ d := by
    rw [hd]
    have : 0 ≤ δ + 1.1 / (2 : ℝ) ^ p := by positivity
    linarith
  exact large_arith hx0 hx1 hd0 hε hdx hc

/-- An instance: `2^16` registers and `2^31` values; the result is at least 18 % too large with
probability at least 95 %. -/
example (hln : LnSpec ln) : fraction (fun h : Fin (2 ^ 31) → Fin (2 ^ 64) => ¬ ∃ y : ℚ,
    later (PF.api Cfg.debug64 ln (noCodec (Fin (2 ^ 31)))) ords (insertAll 16 h) [.count 0] =
      .ok [.count (fin y)] ∧ 1.18 * ((2 ^ 31 : ℕ) : ℝ) ≤ (y : ℝ)) ≤ 0.05 := by
  have h := C53_pf_overestimates (ords := ords) (ln := ln) (cfg := Cfg.debug64) (n := 2 ^ 31)
    (p := 16) (δ := 0.02) hln rfl (noCodec (Fin (2 ^ 31))) (by norm_num) (by norm_num) (by norm_num)
    (by norm_num) (by push_cast; norm_num) le_rfl
  refine le_trans (fraction_mono fun x hx => ?_) (h.trans (by norm_num))
  rintro ⟨y, e1, e2⟩
  exact hx ⟨y, e1, le_trans (by push_cast; norm_num) e2⟩

end HLL
