import Verif.Proofs.StdError
import Mathlib.Analysis.MeanInequalities
import Mathlib.Analysis.MeanInequalitiesPow

/-!
# The fourth moment of the raw estimate

The raw estimate is large when the harmonic sum is small.  The harmonic mean of the `2^M` is at most
their geometric mean, and the average of the geometric mean is a product by negative dependence.  Hence
the fourth moment of the raw estimate is at most a constant times `max(n, m)^4`, whatever the number of
registers.
-/

namespace HLL
open Spec F64 Finset Exps

variable {p n w : Nat}

theorem sqrt2_facts : 1 < √(2 : ℝ) ∧ √(2 : ℝ) * √2 = 2 ∧ √(2 : ℝ) < 1.4143 := by
  refine ⟨?_, Real.mul_self_sqrt (by norm_num), ?_⟩
  · rw [Real.lt_sqrt (by norm_num)]; norm_num
  · rw [Real.sqrt_lt' (by norm_num)]; norm_num

/-- A power of `√2` whose exponent is at most `L`, in terms of the events `k < M`. -/
theorem root_le {K L M : Nat} (hM : M ≤ L) :
    √(2 : ℝ) ^ M ≤ √2 ^ K + ∑ k ∈ Ico K L, √2 ^ k * (√2 - 1) * (1 - if M ≤ k then 1 else 0) := by
  obtain ⟨h1, -, -⟩ := sqrt2_facts
  have hn : ∀ k ∈ Ico K L, 0 ≤ √(2 : ℝ) ^ k * (√2 - 1) * (1 - if M ≤ k then (1 : ℝ) else 0) := by
    intro k _
    have : 0 ≤ √(2 : ℝ) - 1 := by linarith
    have : (0 : ℝ) ≤ 1 - if M ≤ k then (1 : ℝ) else 0 := by split <;> norm_num
    positivity
  rcases Nat.le_total M K with hK | hK
  · have := sum_nonneg hn
    have h2 : √(2 : ℝ) ^ M ≤ √2 ^ K := pow_le_pow_right₀ h1.le hK
    linarith
  · have h2 : ∑ k ∈ Ico K M, √(2 : ℝ) ^ k * (√2 - 1) * (1 - if M ≤ k then (1 : ℝ) else 0) ≤
        ∑ k ∈ Ico K L, √2 ^ k * (√2 - 1) * (1 - if M ≤ k then (1 : ℝ) else 0) :=
      sum_le_sum_of_subset_of_nonneg (Ico_subset_Ico_right hM) fun k hk _ => hn k hk
    have h3 : ∑ k ∈ Ico K M, √(2 : ℝ) ^ k * (√2 - 1) * (1 - if M ≤ k then (1 : ℝ) else 0) =
        √2 ^ M - √2 ^ K := by
      rw [← sum_Ico_sub (fun k => √(2 : ℝ) ^ k) hK]
      refine sum_congr rfl fun k hk => ?_
      rw [if_neg (by have := (mem_Ico.1 hk).2; omega), pow_succ]
      ring
    linarith

/-- The average of `√2^M`. -/
theorem mean_root_le {j : Nat} (hp : p ≤ w) (hw : w ≤ 64) (hj : j < 2 ^ p) (K : Nat) :
    mean (fun h : Fin n → Fin (2 ^ 64) => √(2 : ℝ) ^ reg w p (hashSet w h) j) ≤
      √2 ^ K + n / 2 ^ p * √2 / √2 ^ K := by
  obtain ⟨h1, h2, -⟩ := sqrt2_facts
  have h0 : (0 : ℝ) < √2 := by linarith
  have hd : 0 ≤ √(2 : ℝ) - 1 := by linarith
  have a1 := mean_mono (n := n) fun h : Fin n → Fin (2 ^ 64) =>
    root_le (K := K) (reg_le w p (hashSet w h) j)
  rw [mean_add, mean_const, mean_sum] at a1
  refine a1.trans ((add_le_add_iff_left _).2 ?_)
  have a2 : ∀ k ∈ Ico K (w - p + 1), mean (fun h : Fin n → Fin (2 ^ 64) =>
      √(2 : ℝ) ^ k * (√2 - 1) * (1 - if reg w p (hashSet w h) j ≤ k then 1 else 0)) ≤
      n / 2 ^ p * √2 * (1 / √2 ^ k - 1 / √2 ^ (k + 1)) := by
    intro k hk
    have hk2 := (mem_Ico.1 hk).2
    rw [mean_mul, mean_sub, mean_const, mean_reg_le n (by omega) hw hj]
    have b1 : 1 - (n : ℝ) * (1 / 2 ^ (p + k)) ≤ (1 - 1 / 2 ^ (p + k)) ^ n := by
      have hx : (1 : ℝ) / 2 ^ (p + k) ≤ 1 := by
        rw [div_le_one (by positivity)]; exact one_le_pow₀ (by norm_num)
      have := one_add_mul_le_pow (a := -(1 / (2 : ℝ) ^ (p + k))) (by linarith) n
      have e : (1 + -(1 / (2 : ℝ) ^ (p + k))) = 1 - 1 / 2 ^ (p + k) := by ring
      rw [e] at this
      linarith
    have b2 : √(2 : ℝ) ^ k * (√2 - 1) * (1 - (1 - 1 / 2 ^ (p + k)) ^ n) ≤
        √2 ^ k * (√2 - 1) * (n * (1 / 2 ^ (p + k))) := by
      refine mul_le_mul_of_nonneg_left (by linarith) (by positivity)
    refine b2.trans (le_of_eq ?_)
    have e2 : (2 : ℝ) ^ k = √2 ^ k * √2 ^ k := by rw [← mul_pow, h2]
    rw [pow_add, e2, pow_succ]
    field_simp
  refine (sum_le_sum a2).trans ?_
  rw [← mul_sum]
  rcases Nat.le_total (w - p + 1) K with hK | hK
  · rw [Ico_eq_empty_of_le hK, sum_empty, mul_zero]; positivity
  · have e : ∑ k ∈ Ico K (w - p + 1), (1 / √(2 : ℝ) ^ k - 1 / √2 ^ (k + 1)) =
        1 / √2 ^ K - 1 / √2 ^ (w - p + 1) := by
      have := sum_Ico_sub (fun k => -(1 / √(2 : ℝ) ^ k)) hK
      rw [sum_congr rfl fun k _ => show 1 / √(2 : ℝ) ^ k - 1 / √2 ^ (k + 1) =
        -(1 / √2 ^ (k + 1)) - -(1 / √2 ^ k) by ring, this]
      ring
    rw [e, div_eq_mul_one_div (_ * √(2 : ℝ)) (√(2 : ℝ) ^ K)]
    refine mul_le_mul_of_nonneg_left ?_ (by positivity)
    have : 0 ≤ 1 / √(2 : ℝ) ^ (w - p + 1) := by positivity
    linarith

/-- The average of `√2^M` with the best exponent. -/
theorem mean_root {j : Nat} (hp : p ≤ w) (hw : w ≤ 64) (hj : j < 2 ^ p) :
    mean (fun h : Fin n → Fin (2 ^ 64) => √(2 : ℝ) ^ reg w p (hashSet w h) j) ^ 2 ≤
      5.83 * max ((n : ℝ) / 2 ^ p) 1 := by
  obtain ⟨h1, h2, h3⟩ := sqrt2_facts
  have h0 : (0 : ℝ) < √2 := by linarith
  have hl0 : (0 : ℝ) ≤ n / 2 ^ p := by positivity
  have hB : 0 ≤ mean (fun h : Fin n → Fin (2 ^ 64) => √(2 : ℝ) ^ reg w p (hashSet w h) j) := by
    have := mean_mono (n := n) fun h => (by positivity : 0 ≤ √(2 : ℝ) ^ reg w p (hashSet w h) j)
    rwa [mean_const] at this
  have key := fun K => mean_root_le (n := n) hp hw hj K
  rcases le_total ((n : ℝ) / 2 ^ p) 1 with hl | hl
  · have k0 := key 0
    rw [max_eq_right hl]
    rw [pow_zero, div_one] at k0
    generalize (n : ℝ) / 2 ^ p = l at *
    refine (pow_le_pow_left₀ hB (k0.trans (show 1 + l * √2 ≤ 1 + √2 by nlinarith)) 2).trans ?_
    norm_num at *
    nlinarith
  · rw [max_eq_left hl]
    obtain ⟨k, a1, a2⟩ := exists_nat_pow_near hl (by norm_num : (1 : ℝ) < 2)
    have k0 := key (k + 1)
    generalize (n : ℝ) / 2 ^ p = l at *
    have hu2 : (√(2 : ℝ) ^ (k + 1)) ^ 2 = 2 ^ (k + 1) := by
      rw [← pow_mul, mul_comm, pow_mul, pow_two, h2]
    have hu : 0 < √(2 : ℝ) ^ (k + 1) := by positivity
    rw [pow_succ 2 k] at a2 hu2
    generalize √(2 : ℝ) ^ (k + 1) = u at *
    refine (pow_le_pow_left₀ hB k0 2).trans ?_
    have hlow : l ≤ u ^ 2 := by rw [hu2]; exact a2.le
    have hup : u ^ 2 ≤ 2 * l := by rw [hu2]; linarith
    have e : (u + l * √2 / u) ^ 2 = u ^ 2 + 2 * √2 * l + 2 * l ^ 2 / u ^ 2 := by
      field_simp
      nlinarith [h2]
    rw [e]
    have hq : 2 * l ^ 2 / u ^ 2 ≤ 3 * l - u ^ 2 := by
      rw [div_le_iff₀ (by positivity)]
      nlinarith [mul_nonneg (sub_nonneg.2 hlow) (sub_nonneg.2 hup)]
    norm_num at *
    nlinarith

/-- The inverse of the harmonic sum is at most the geometric mean of the `2^M`. -/
theorem inv_harm_le (h : Fin n → Fin (2 ^ 64)) :
    (2 ^ p / harm w p h) ^ 4 ≤
      ∏ j ∈ range (2 ^ p), ((2 : ℝ) ^ reg w p (hashSet w h) j) ^ ((4 : ℝ) / 2 ^ p) := by
  have hm0 : (0 : ℝ) < 2 ^ p := by positivity
  have gm := Real.geom_mean_le_arith_mean_weighted (range (2 ^ p)) (fun _ => 1 / (2 : ℝ) ^ p)
    (fun j => (1 / 2 : ℝ) ^ reg w p (hashSet w h) j) (fun _ _ => by positivity) (by
      rw [sum_const, card_range, nsmul_eq_mul]; push_cast; field_simp) (fun _ _ => by positivity)
  rw [← mul_sum] at gm
  have e1 : 1 / (2 : ℝ) ^ p * ∑ j ∈ range (2 ^ p), (1 / 2 : ℝ) ^ reg w p (hashSet w h) j =
      harm w p h / 2 ^ p := by unfold harm; ring
  rw [e1] at gm
  have hg : 0 < ∏ j ∈ range (2 ^ p), ((1 / 2 : ℝ) ^ reg w p (hashSet w h) j) ^ (1 / (2 : ℝ) ^ p) :=
    prod_pos fun _ _ => by positivity
  have e2 : ∏ j ∈ range (2 ^ p), ((2 : ℝ) ^ reg w p (hashSet w h) j) ^ ((4 : ℝ) / 2 ^ p) =
      (1 / ∏ j ∈ range (2 ^ p), ((1 / 2 : ℝ) ^ reg w p (hashSet w h) j) ^ (1 / (2 : ℝ) ^ p)) ^ 4 := by
    rw [one_div, ← prod_inv_distrib, ← prod_pow]
    refine prod_congr rfl fun j _ => ?_
    rw [one_div_pow, Real.div_rpow (by norm_num) (by positivity), Real.one_rpow, one_div, inv_inv,
      ← Real.rpow_natCast (_ ^ (1 / (2 : ℝ) ^ p)), ← Real.rpow_mul (by positivity)]
    congr 1
    push_cast
    ring
  rw [e2]
  have e3 : 2 ^ p / harm w p h = 1 / (harm w p h / 2 ^ p) := by rw [one_div_div]
  rw [e3]
  have := one_div_le_one_div_of_le hg gm
  have hh : 0 ≤ 1 / (harm w p h / 2 ^ p) := by
    have : 0 ≤ harm w p h := sum_nonneg fun _ _ => by positivity
    positivity
  exact pow_le_pow_left₀ hh this 4

/-- The fourth moment of the inverse of the harmonic sum. -/
theorem inv_harm_fourth (h3 : 3 ≤ p) (hp : p ≤ w) (hw : w ≤ 64) :
    mean (fun h : Fin n → Fin (2 ^ 64) => (2 ^ p / harm w p h) ^ 4) ≤
      (5.83 * max ((n : ℝ) / 2 ^ p) 1) ^ 4 := by
  have hm0 : (0 : ℝ) < 2 ^ p := by positivity
  refine (mean_mono fun h => inv_harm_le h).trans ?_
  have hmono : Monotone fun k : Nat => ((2 : ℝ) ^ k) ^ ((4 : ℝ) / 2 ^ p) := fun a b hab => by
    refine Real.rpow_le_rpow (by positivity) (pow_le_pow_right₀ (by norm_num) hab) (by positivity)
  refine (mean_prod_le_mono (φ := fun k : Nat => ((2 : ℝ) ^ k) ^ ((4 : ℝ) / 2 ^ p))
    (fun k => by positivity) hmono (range (2 ^ p))).trans ?_
  -- each factor
  have factor : ∀ j ∈ range (2 ^ p), mean (fun h : Fin n → Fin (2 ^ 64) =>
      ((2 : ℝ) ^ reg w p (hashSet w h) j) ^ ((4 : ℝ) / 2 ^ p)) ^ (2 ^ (p - 3)) ≤
      √(5.83 * max ((n : ℝ) / 2 ^ p) 1) := by
    intro j hj
    have hc : (0 : ℝ) < Fintype.card (Fin n → Fin (2 ^ 64)) := by exact_mod_cast Fintype.card_pos
    have pm := Real.pow_arith_mean_le_arith_mean_pow (univ : Finset (Fin n → Fin (2 ^ 64)))
      (fun _ => 1 / (Fintype.card (Fin n → Fin (2 ^ 64)) : ℝ))
      (fun h => ((2 : ℝ) ^ reg w p (hashSet w h) j) ^ ((4 : ℝ) / 2 ^ p)) (fun _ _ => by positivity) (by
        rw [sum_const, card_univ, nsmul_eq_mul]; field_simp) (fun _ _ => by positivity) (2 ^ (p - 3))
    rw [← mul_sum, ← mul_sum] at pm
    have e : ∀ f : (Fin n → Fin (2 ^ 64)) → ℝ,
        1 / (Fintype.card (Fin n → Fin (2 ^ 64)) : ℝ) * ∑ h, f h = mean f := fun f => by
      unfold mean; ring
    rw [e, e] at pm
    refine pm.trans ?_
    have e2 : (fun h : Fin n → Fin (2 ^ 64) =>
        (((2 : ℝ) ^ reg w p (hashSet w h) j) ^ ((4 : ℝ) / 2 ^ p)) ^ (2 ^ (p - 3))) =
        fun h => √(2 : ℝ) ^ reg w p (hashSet w h) j := by
      funext h
      rw [← Real.rpow_natCast (_ ^ ((4 : ℝ) / 2 ^ p)), ← Real.rpow_mul (by positivity),
        ← Real.rpow_natCast 2, ← Real.rpow_mul (by norm_num), Real.sqrt_eq_rpow, ← Real.rpow_natCast (2 ^ _),
        ← Real.rpow_mul (by norm_num)]
      congr 1
      have : (2 : ℝ) ^ p = 2 ^ (p - 3) * 8 := by
        rw [show (8 : ℝ) = 2 ^ 3 by norm_num, ← pow_add]; congr 1; omega
      push_cast
      rw [this]
      field_simp
      ring
    rw [e2]
    exact Real.le_sqrt_of_sq_le (mean_root hp hw (mem_range.1 hj))
  have e : (5.83 * max ((n : ℝ) / 2 ^ p) 1) ^ 4 = ∏ _j ∈ range 8, √(5.83 * max ((n : ℝ) / 2 ^ p) 1) := by
    rw [prod_const, card_range, show 8 = 2 * 4 by norm_num, pow_mul, Real.sq_sqrt (by positivity)]
  set r := √(5.83 * max ((n : ℝ) / 2 ^ p) 1) with hr
  have hr0 : 0 ≤ r := Real.sqrt_nonneg _
  have h8 : 2 ^ (p - 3) ≠ 0 := by positivity
  have f2 : ∀ j ∈ range (2 ^ p), mean (fun h : Fin n → Fin (2 ^ 64) =>
      ((2 : ℝ) ^ reg w p (hashSet w h) j) ^ ((4 : ℝ) / 2 ^ p)) ≤ r ^ (1 / (2 : ℝ) ^ (p - 3)) := by
    intro j hj
    have h0 : 0 ≤ mean (fun h : Fin n → Fin (2 ^ 64) =>
        ((2 : ℝ) ^ reg w p (hashSet w h) j) ^ ((4 : ℝ) / 2 ^ p)) := by
      have := mean_mono (n := n) fun h =>
        (by positivity : 0 ≤ ((2 : ℝ) ^ reg w p (hashSet w h) j) ^ ((4 : ℝ) / 2 ^ p))
      rwa [mean_const] at this
    have := Real.rpow_le_rpow (by positivity) (factor j hj) (by positivity : 0 ≤ 1 / (2 : ℝ) ^ (p - 3))
    rw [← Real.rpow_natCast _ (2 ^ (p - 3)), ← Real.rpow_mul h0] at this
    push_cast at this
    rwa [mul_one_div_cancel (by positivity), Real.rpow_one] at this
  refine (prod_le_prod (fun j _ => ?_) f2).trans ?_
  · have := mean_mono (n := n) fun h =>
      (by positivity : 0 ≤ ((2 : ℝ) ^ reg w p (hashSet w h) j) ^ ((4 : ℝ) / 2 ^ p))
    rwa [mean_const] at this
  rw [e, prod_const, prod_const, card_range, card_range, ← Real.rpow_natCast _ (2 ^ p),
    ← Real.rpow_mul hr0, ← Real.rpow_natCast r 8]
  refine le_of_eq ?_
  congr 1
  have : (2 : ℝ) ^ p = 2 ^ (p - 3) * 8 := by
    rw [show (8 : ℝ) = 2 ^ 3 by norm_num, ← pow_add]; congr 1; omega
  push_cast
  rw [this]
  field_simp

/-- The fourth moment of the raw estimate. -/
theorem raw_fourth (h1 : 4 ≤ p) (h2 : p ≤ 18) :
    mean (fun h : Fin n → Fin (2 ^ 64) => (rawQ p (hsum 0 (regs 64 p (hashSet 64 h))) : ℝ) ^ 4) ≤
      (4.21 * max (n : ℝ) (2 ^ p)) ^ 4 := by
  have hm0 : (0 : ℝ) < 2 ^ p := by positivity
  obtain ⟨-, a2⟩ := alpha_near (p := p) (by omega) h2
  have a3 : (alphaQ p : ℝ) ≤ 0.7213 := by
    have : 0 ≤ 1.06 / (2 : ℝ) ^ p := by positivity
    norm_num at a2 ⊢; linarith
  have hα : (0 : ℝ) < alphaQ p := by
    have : (0 : ℚ) < alphaQ p := by linarith [(alpha_facts h1 h2).2.1]
    exact_mod_cast this
  have hb : ∀ h : Fin n → Fin (2 ^ 64), (rawQ p (hsum 0 (regs 64 p (hashSet 64 h))) : ℝ) ^ 4 ≤
      (0.72131 * 2 ^ p) ^ 4 * (2 ^ p / harm 64 p h) ^ 4 := by
    intro h
    have hM : Regs p (regs 64 p (hashSet 64 h)) := regs_regs _ (by omega)
    obtain ⟨hH, hr⟩ := raw_rel h1 h2 hM
    have hH' : 0 < harm 64 p h := by rw [← harm_eq]; exact_mod_cast hH
    have hr' := (Rat.cast_le (K := ℝ)).2 hr
    push_cast at hr'
    rw [harm_eq] at hr'
    obtain ⟨r1, r2⟩ := abs_le.1 hr'
    have e : (alphaQ p : ℝ) * (2 ^ p * 2 ^ p) / harm 64 p h = alphaQ p * 2 ^ p * (2 ^ p / harm 64 p h) := by
      ring
    rw [e] at r1 r2
    have hx : 0 < 2 ^ p / harm 64 p h := by positivity
    rw [← mul_pow]
    have hαm : (alphaQ p : ℝ) * 2 ^ p ≤ 0.7213 * 2 ^ p := by gcongr
    have hαm' := mul_le_mul_of_nonneg_right hαm hx.le
    have h00 : 0 < (alphaQ p : ℝ) * 2 ^ p * (2 ^ p / harm 64 p h) := by positivity
    have e3 : 0.72131 * (2 : ℝ) ^ p * (2 ^ p / harm 64 p h) =
      0.72131 / 0.7213 * (0.7213 * 2 ^ p * (2 ^ p / harm 64 p h)) := by ring
    rw [e3]
    generalize (alphaQ p : ℝ) * 2 ^ p * (2 ^ p / harm 64 p h) = x at *
    generalize 0.7213 * (2 : ℝ) ^ p * (2 ^ p / harm 64 p h) = y at *
    refine pow_le_pow_left₀ ?_ ?_ 4
    · norm_num at r1; linarith
    · norm_num at r2 ⊢; linarith
  refine (mean_mono hb).trans ?_
  rw [mean_mul]
  refine (mul_le_mul_of_nonneg_left (inv_harm_fourth (by omega) (by omega) le_rfl)
    (by positivity)).trans ?_
  rw [← mul_pow]
  refine pow_le_pow_left₀ (by positivity) ?_ 4
  have e : (2 : ℝ) ^ p * max ((n : ℝ) / 2 ^ p) 1 = max (n : ℝ) (2 ^ p) := by
    rw [mul_max_of_nonneg _ _ hm0.le, mul_one, mul_div_cancel₀ _ hm0.ne']
  have hmax : 0 ≤ max (n : ℝ) (2 ^ p) := by positivity
  calc 0.72131 * (2 : ℝ) ^ p * (5.83 * max ((n : ℝ) / 2 ^ p) 1) =
        0.72131 * 5.83 * (2 ^ p * max ((n : ℝ) / 2 ^ p) 1) := by ring
    _ = 0.72131 * 5.83 * max (n : ℝ) (2 ^ p) := by rw [e]
    _ ≤ _ := by gcongr; norm_num

end HLL
