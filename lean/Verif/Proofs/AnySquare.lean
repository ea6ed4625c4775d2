import Verif.Proofs.AnyError

/-!
# The mean square of the error from 256 registers

The bound of `AnyError.lean` is squared and averaged.  Where the harmonic sum is less than half of its
mean, the fourth moment of the raw estimate is used instead.
-/

namespace HLL
open Spec F64 Finset Exps

variable {ln : F64 → F64} {p n w : Nat}

open Classical in
/-- The mean square of an error that is at most `(T + b) N` outside a rare set, and has a bounded
fourth moment on that set. -/
theorem square_any {T Y G : (Fin n → Fin (2 ^ 64)) → ℝ} {half : (Fin n → Fin (2 ^ 64)) → Prop}
    {b N r s g : ℝ} (hT0 : ∀ h, 0 ≤ T h) (hb : 0 ≤ b) (hN : 0 ≤ N) (hr : 0 < r) (hs : 0 < s) (hg : 0 < g)
    (hT : mean (fun h => T h ^ 2) ≤ r ^ 2) (near : ∀ h, ¬ half h → |Y h| ≤ (T h + b) * N)
    (far : ∀ h, Y h ^ 4 ≤ G h) (hG : mean G ≤ g ^ 4) (hh : fraction half ≤ s ^ 2) :
    mean (fun h => Y h ^ 2) ≤ ((r + b) * N) ^ 2 + s * g ^ 2 := by
  have h1 : ∀ h, Y h ^ 2 ≤ N ^ 2 * T h ^ 2 + 2 * N * (b * N) * |T h| + (b * N) ^ 2 +
      s / (2 * g ^ 2) * G h + g ^ 2 / (2 * s) * (if half h then 1 else 0) := by
    intro h
    have g0 : 0 ≤ N ^ 2 * T h ^ 2 + 2 * N * (b * N) * |T h| + (b * N) ^ 2 := by positivity
    have g1 : 0 ≤ s / (2 * g ^ 2) * G h :=
      mul_nonneg (by positivity) (le_trans (by positivity) (far h))
    by_cases c : half h
    · rw [if_pos c, mul_one]
      have h2 : s / (2 * g ^ 2) * Y h ^ 4 ≤ s / (2 * g ^ 2) * G h :=
        mul_le_mul_of_nonneg_left (far h) (by positivity)
      have h3 : s / (2 * g ^ 2) * Y h ^ 4 + g ^ 2 / (2 * s) - Y h ^ 2 =
          s / (2 * g ^ 2) * (Y h ^ 2 - g ^ 2 / s) ^ 2 := by field_simp; ring
      have h4 : 0 ≤ s / (2 * g ^ 2) * (Y h ^ 2 - g ^ 2 / s) ^ 2 := by positivity
      linarith
    · rw [if_neg c, mul_zero, add_zero]
      have a4 : Y h ^ 2 ≤ ((T h + b) * N) ^ 2 := by
        rw [← sq_abs]; exact pow_le_pow_left₀ (abs_nonneg _) (near h c) 2
      have e : ((T h + b) * N) ^ 2 = N ^ 2 * T h ^ 2 + 2 * N * (b * N) * |T h| + (b * N) ^ 2 := by
        rw [abs_of_nonneg (hT0 h)]; ring
      linarith
  have h2 := mean_mono h1
  rw [mean_add, mean_add, mean_add, mean_add, mean_mul, mean_mul, mean_mul, mean_mul, mean_const,
    ← fraction_eq_mean] at h2
  have h3 : mean (fun h => |T h|) ≤ r := mean_abs_le hr hT
  have h4 : N ^ 2 * mean (fun h => T h ^ 2) ≤ N ^ 2 * r ^ 2 := by gcongr
  have h5 : 2 * N * (b * N) * mean (fun h => |T h|) ≤ 2 * N * (b * N) * r := by gcongr
  have h6 : s / (2 * g ^ 2) * mean G ≤ s * g ^ 2 / 2 := by
    calc _ ≤ s / (2 * g ^ 2) * g ^ 4 := mul_le_mul_of_nonneg_left hG (by positivity)
      _ = _ := by field_simp
  have h7 : g ^ 2 / (2 * s) * fraction half ≤ s * g ^ 2 / 2 := by
    calc _ ≤ g ^ 2 / (2 * s) * s ^ 2 := mul_le_mul_of_nonneg_left hh (by positivity)
      _ = _ := by field_simp
  refine h2.trans ((add_le_add (add_le_add (add_le_add (add_le_add h4 h5) le_rfl) h6) h7).trans
    (le_of_eq ?_))
  ring

theorem mean_anyDevs (h1 : 8 ≤ p) (h2 : p ≤ 18) (hn : n ≤ 2 ^ 59) :
    mean (anyDevs p n) ≤ 8.72 / 2 ^ p := by
  have hm : (0 : ℝ) < 1 / 2 ^ p := by positivity
  have hd : ∀ x : ℝ, x / 2 ^ p = x * (1 / 2 ^ p) := fun x => by ring
  have hvar : relVar 64 p n ≤ 1.15 := by
    rcases Nat.lt_or_ge (6 * 2 ^ p) n with h6 | h6
    · exact (loaded_high (w := 64) h1 h2 (by omega) le_rfl (by omega) (by norm_num at hn ⊢; omega)).var
    · exact relVar_le (w := 64) (by omega) h1 h2 h6
  have a := harm_square_of (by omega) h2 hvar
  have c := prefix_square (p := p) (n := n)
  rw [hd] at a c ⊢
  change mean (fun h => harmDev p n h ^ 2) ≤ _ at a
  change mean (fun h => prefixDev p n h ^ 2) ≤ _ at c
  unfold anyDevs
  by_cases hn2 : n ≤ 2 * 2 ^ p
  · have b := zunit_square h1 h2 hn2
    rw [hd 0.95] at b
    change mean (fun h => zerosDev p n h ^ 2) ≤ _ at b
    simp only [if_pos hn2]
    rw [mean_add, mean_add, mean_mul, mean_mul, mean_mul]
    generalize 1 / (2 : ℝ) ^ p = x at *
    norm_num at *
    linarith
  by_cases hn6 : n ≤ 6 * 2 ^ p
  · have b : mean (fun h : Fin n → Fin (2 ^ 64) =>
        (((zeros 64 p (hashSet 64 h) : ℝ) - 2 ^ p * (1 - 1 / 2 ^ p) ^ n) / 2 ^ p) ^ 2) ≤
        (1 - 1 / 2 ^ p) ^ n * (1 - (1 - 1 / 2 ^ p) ^ n) * (1 / 2 ^ p) := by
      have e : (fun h : Fin n → Fin (2 ^ 64) =>
          (((zeros 64 p (hashSet 64 h) : ℝ) - 2 ^ p * (1 - 1 / 2 ^ p) ^ n) / 2 ^ p) ^ 2) =
          fun h => 1 / (2 ^ p) ^ 2 * ((zeros 64 p (hashSet 64 h) : ℝ) - 2 ^ p * (1 - 1 / 2 ^ p) ^ n) ^ 2 := by
        funext h; rw [div_pow]; ring
      rw [e, mean_mul]
      refine (mul_le_mul_of_nonneg_left (zeros_square (w := 64) (by omega) (by omega) le_rfl)
        (by positivity)).trans (le_of_eq ?_)
      field_simp
    have hq0 := q_pos (p := p) (n := n) h1
    have hk : ∀ κ : ℝ, 0 ≤ κ → κ * ((1 - 1 / 2 ^ p) ^ n * (1 - (1 - 1 / 2 ^ p) ^ n)) ≤ 3.092 →
        mean (fun h : Fin n → Fin (2 ^ 64) => 4.48 * harmDev p n h ^ 2 + (κ *
          (((zeros 64 p (hashSet 64 h) : ℝ) - 2 ^ p * (1 - 1 / 2 ^ p) ^ n) / 2 ^ p) ^ 2 +
            3.02 * prefixDev p n h ^ 2)) ≤ 8.72 * (1 / 2 ^ p) := by
      intro κ h0 hκ
      rw [mean_add, mean_add, mean_mul, mean_mul, mean_mul]
      have b' := mul_le_mul_of_nonneg_left b h0
      have b2 := mul_le_mul_of_nonneg_right hκ hm.le
      rw [mul_assoc] at b2
      have b3 := b'.trans b2
      generalize κ * mean (fun h : Fin n → Fin (2 ^ 64) =>
        (((zeros 64 p (hashSet 64 h) : ℝ) - 2 ^ p * (1 - 1 / 2 ^ p) ^ n) / 2 ^ p) ^ 2) = z at *
      generalize 1 / (2 : ℝ) ^ p = x at *
      norm_num at a c b3 ⊢
      linarith
    have hn2' : 2 * (2 : ℝ) ^ p ≤ n := by exact_mod_cast (not_le.1 hn2).le
    have q2 := (empty_le (p := p) (n := n) 2 hn2').trans exp_two_three.1
    simp only [if_neg hn2, if_pos hn6]
    by_cases hn3 : n ≤ 3 * 2 ^ p
    · simp only [if_pos hn3]
      refine hk _ (by norm_num) ?_
      generalize (1 - 1 / (2 : ℝ) ^ p) ^ n = q at *
      norm_num at q2 ⊢
      nlinarith
    · simp only [if_neg hn3]
      refine hk _ (by norm_num) ?_
      have hn3' : 3 * (2 : ℝ) ^ p ≤ n := by exact_mod_cast (not_le.1 hn3).le
      have q3 := (empty_le (p := p) (n := n) 3 hn3').trans exp_two_three.2
      generalize (1 - 1 / (2 : ℝ) ^ p) ^ n = q at *
      norm_num at q3 ⊢
      nlinarith
  · simp only [if_neg hn2, if_neg hn6, add_zero]
    rw [mean_mul]
    generalize 1 / (2 : ℝ) ^ p = x at *
    norm_num at *
    linarith

theorem half_small (h1 : 8 ≤ p) (h2 : p ≤ 18) :
    Real.exp (-(0.039 * 2 ^ p)) * 4.77 ^ 2 ≤ 0.271 / 2 ^ p := by
  rcases Nat.lt_or_ge 8 p with h | h
  · have hm : (19 : ℕ) ≤ 0.039 * (2 : ℝ) ^ p := by
      have : (2 : ℝ) ^ 9 ≤ 2 ^ p := pow_le_pow_right₀ (by norm_num) h
      norm_num at this ⊢; linarith
    have := exp_neg_le' hm
    have hm2 := m_le h2
    rw [le_div_iff₀ (by positivity)]
    calc _ ≤ (0.36788 : ℝ) ^ 19 * 4.77 ^ 2 * 2 ^ 18 := by gcongr
      _ ≤ _ := by norm_num
  · obtain rfl : p = 8 := by omega
    have e : -(0.039 * (2 : ℝ) ^ 8) = (10 : ℕ) * (-1 + 0.0016) := by norm_num
    rw [e, Real.exp_nat_mul, Real.exp_add]
    have a1 : Real.exp (-1) ≤ 0.36788 := by
      have := Real.exp_neg_one_lt_d9
      norm_num at this ⊢; linarith
    have a2 : Real.exp 0.0016 ≤ 1.00161 := by
      have := Real.add_one_le_exp (-0.0016 : ℝ)
      rw [Real.exp_neg, le_inv_comm₀ (by norm_num) (Real.exp_pos _)] at this
      refine this.trans (by norm_num)
    calc _ ≤ ((0.36788 : ℝ) * 1.00161) ^ 10 * 4.77 ^ 2 := by gcongr
      _ ≤ _ := by norm_num

/-- The mean square of the error, from 256 registers. -/
theorem any_square (hln : LnSpec ln) (v : Search) (h1 : 8 ≤ p) (h2 : p ≤ 18) (hn : n ≤ 2 ^ 59)
    {y : (Fin n → Fin (2 ^ 64)) → ℚ} (hy : ∀ h, plusCount ln (Plus.biasOf v) p (hashSet 64 h) = fin (y h)) :
    mean (fun h => ((y h : ℝ) - n) ^ 2) ≤
      ((3 / √(2 ^ p) + 0.005 + 4 / 2 ^ p) * (n + 1.6 * 2 ^ p)) ^ 2 := by
  have hm0 : (0 : ℝ) < 2 ^ p := by positivity
  have hm := m_ge h1
  have hx : 0 < 1 / √((2 : ℝ) ^ p) := by positivity
  have hx2 : (1 / √((2 : ℝ) ^ p)) ^ 2 = 1 / 2 ^ p := by
    rw [div_pow, Real.sq_sqrt hm0.le, one_pow]
  have hn0 : (0 : ℝ) ≤ n := Nat.cast_nonneg n
  have hN : (0 : ℝ) < n + 1.6 * 2 ^ p := by positivity
  have hM := moment_half_pos (w := 64) (p := p) (n := n)
  have hvar : relVar 64 p n ≤ 1.15 := by
    rcases Nat.lt_or_ge (6 * 2 ^ p) n with h6 | h6
    · exact (loaded_high (w := 64) h1 h2 (by omega) le_rfl (by omega) (by norm_num at hn ⊢; omega)).var
    · exact relVar_le (w := 64) (by omega) h1 h2 h6
  have key := square_any (n := n) (T := fun h => √(anyDevs p n h)) (Y := fun h => (y h : ℝ) - n)
    (G := fun h => (3.77 * (n + 1.6 * 2 ^ p)) ^ 4 +
      (rawQ p (hsum 0 (regs 64 p (hashSet 64 h))) : ℝ) ^ 4)
    (half := fun h => harm 64 p h ≤ 1 / 2 * (2 ^ p * moment 64 p n (1 / 2)))
    (b := 0.005 + 4 / 2 ^ p) (N := n + 1.6 * 2 ^ p) (r := 2.953 * (1 / √(2 ^ p)))
    (s := Real.exp (-(0.039 * 2 ^ p))) (g := 4.77 * (n + 1.6 * 2 ^ p))
    (fun h => Real.sqrt_nonneg _) (by positivity) hN.le (by positivity) (Real.exp_pos _) (by positivity)
    (by
      have e : (fun h : Fin n → Fin (2 ^ 64) => √(anyDevs p n h) ^ 2) = anyDevs p n := by
        funext h; exact Real.sq_sqrt (anyDevs_nonneg h)
      rw [e, mul_pow, hx2]
      refine (mean_anyDevs h1 h2 hn).trans ?_
      rw [mul_one_div]
      gcongr
      norm_num)
    (fun h hh => by
      have hz : 1 / 2 < harmRatio p n h := by
        unfold harmRatio
        rw [lt_div_iff₀ (by positivity)]
        exact not_le.1 hh
      rcases Nat.lt_or_ge (6 * 2 ^ p) n with h6 | h6
      · refine (near_any_high hln v h1 h2 h6 hn (hy h) hz).trans (mul_le_mul_of_nonneg_right ?_ hN.le)
        exact add_le_add (anyDevs_harm h) le_rfl
      · exact near_any_low hln v h1 h2 h6 (hy h) hz)
    (fun h => by
      obtain ⟨Y, k1, k2, -, k3⟩ := plusCount_range hln v (p := p) (by omega) h2 (S := hashSet 64 h)
      rw [← fin.inj ((hy h).symm.trans k1)] at k2 k3
      have k2' : (0 : ℝ) ≤ y h := by exact_mod_cast k2
      have even : ∀ a b : ℝ, |a| ≤ b → a ^ 4 ≤ b ^ 4 := fun a b hab => by
        have h4 : |a| ^ 4 = a ^ 4 := (by decide : Even 4).pow_abs a
        rw [← h4]; exact pow_le_pow_left₀ (abs_nonneg _) hab 4
      have hraw : (0 : ℝ) ≤ (rawQ p (hsum 0 (regs 64 p (hashSet 64 h))) : ℝ) ^ 4 := by positivity
      have hN4 : 0 ≤ (3.77 * ((n : ℝ) + 1.6 * 2 ^ p)) ^ 4 := by positivity
      by_cases hc : |(y h : ℝ) - n| ≤ 3.77 * (n + 1.6 * 2 ^ p)
      · have := even _ _ hc
        linarith
      · have : |(y h : ℝ) - n| ≤ rawQ p (hsum 0 (regs 64 p (hashSet 64 h))) := by
          rcases k3 with k3 | k3
          · exfalso
            apply hc
            have k3' := (Rat.cast_le (K := ℝ)).2 k3
            push_cast at k3'
            rw [abs_le]
            norm_num
            constructor <;> linarith
          · rw [← k3]
            rw [abs_le] at hc ⊢
            norm_num at hc
            constructor
            · by_contra hcon
              have := hc (by linarith)
              linarith
            · linarith
        have := even _ _ this
        linarith)
    (by
      rw [mean_add, mean_const]
      have h4 := raw_fourth (n := n) (p := p) (by omega) h2
      have hmax : max (n : ℝ) (2 ^ p) ≤ n + 1.6 * 2 ^ p := by
        refine max_le (by linarith) ?_
        norm_num; linarith
      have h5 : (4.21 * max (n : ℝ) (2 ^ p)) ^ 4 ≤ (4.21 * (n + 1.6 * 2 ^ p)) ^ 4 := by
        have : 0 ≤ max (n : ℝ) (2 ^ p) := le_trans hn0 (le_max_left _ _)
        gcongr
      refine (add_le_add le_rfl (h4.trans h5)).trans ?_
      rw [mul_pow, mul_pow, mul_pow, ← add_mul]
      gcongr
      norm_num)
    (by
      refine (harm_half hvar (by omega) le_rfl).trans (le_of_eq ?_)
      rw [← Real.exp_nat_mul]
      congr 1
      push_cast
      ring)
  refine key.trans ?_
  have hs := half_small h1 h2
  have e1 : Real.exp (-(0.039 * 2 ^ p)) * (4.77 * ((n : ℝ) + 1.6 * 2 ^ p)) ^ 2 ≤
      0.271 / 2 ^ p * (n + 1.6 * 2 ^ p) ^ 2 := by
    rw [mul_pow, ← mul_assoc]
    exact mul_le_mul_of_nonneg_right hs (sq_nonneg _)
  refine (add_le_add le_rfl e1).trans ?_
  rw [mul_pow, mul_pow _ ((n : ℝ) + 1.6 * 2 ^ p), ← add_mul]
  refine mul_le_mul_of_nonneg_right ?_ (sq_nonneg _)
  have e2 : 0.271 / (2 : ℝ) ^ p = 0.271 * (1 / √((2 : ℝ) ^ p)) ^ 2 := by rw [hx2]; ring
  have e3 : 3 / √((2 : ℝ) ^ p) = 3 * (1 / √(2 ^ p)) := by ring
  rw [e2, e3, add_assoc (3 * _)]
  have hb : 0 ≤ 0.005 + 4 / (2 : ℝ) ^ p := by positivity
  generalize 0.005 + 4 / (2 : ℝ) ^ p = b at *
  generalize 1 / √((2 : ℝ) ^ p) = x at *
  norm_num
  nlinarith [mul_nonneg hb hx.le, sq_nonneg x]

end HLL
