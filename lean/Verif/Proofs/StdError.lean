import Verif.Proofs.Chernoff
import Verif.Props.Worst

/-!
# First and second moment of the estimate

The estimate of HyperLogLog++ for more than `6 m` values, as a random variable: it is `C/Z` up to
rounding, where `Z` is the harmonic sum divided by its mean, unless `Z` is far from 1.
-/

namespace HLL
open Spec F64 Finset

variable {ln : F64 → F64} {p n w : Nat} {δ : ℝ}

/-! ## Averages -/

theorem mean_nonneg {f : (Fin n → Fin (2 ^ 64)) → ℝ} (h : ∀ x, 0 ≤ f x) : 0 ≤ mean f := by
  rw [← mean_const (n := n) 0]; exact mean_mono h

/-- The mean of the modulus is at most the root of the mean square. -/
theorem mean_abs_le {f : (Fin n → Fin (2 ^ 64)) → ℝ} {r : ℝ} (hr : 0 < r)
    (h : mean (fun x => f x ^ 2) ≤ r ^ 2) : mean (fun x => |f x|) ≤ r := by
  have h1 : mean (fun x => |f x|) ≤ mean (fun x => 1 / (2 * r) * f x ^ 2 + r / 2) := by
    refine mean_mono fun x => ?_
    have h2 : 0 ≤ (|f x| - r) ^ 2 := sq_nonneg _
    have h3 : |f x| ^ 2 = f x ^ 2 := sq_abs _
    have e : 1 / (2 * r) * f x ^ 2 + r / 2 - |f x| = (|f x| - r) ^ 2 / (2 * r) := by
      rw [← h3]; field_simp; ring
    have : 0 ≤ (|f x| - r) ^ 2 / (2 * r) := by positivity
    linarith
  rw [mean_add, mean_mul, mean_const] at h1
  have h4 : 1 / (2 * r) * mean (fun x => f x ^ 2) ≤ 1 / (2 * r) * r ^ 2 := by gcongr
  have e : 1 / (2 * r) * r ^ 2 = r / 2 := by field_simp
  linarith

theorem abs_mean_le {f g : (Fin n → Fin (2 ^ 64)) → ℝ} (h : ∀ x, |f x| ≤ g x) : |mean f| ≤ mean g := by
  rw [abs_le]
  constructor
  · have := mean_mono (f := fun x => -1 * g x) (g := f) fun x => by have := (abs_le.1 (h x)).1; linarith
    rw [mean_mul] at this; linarith
  · exact mean_mono fun x => (abs_le.1 (h x)).2

/-- What the moments follow from: `Z` has mean 1, small variance and thin tails, and `Y` is `C/Z`
up to `b n` unless `Z` is far from 1. -/
structure Ratio (n : Nat) (Z Y : (Fin n → Fin (2 ^ 64)) → ℝ) (C δ v b q s W : ℝ) : Prop where
  pos : ∀ h, 0 < Z h
  one : mean Z = 1
  var : mean (fun h => (Z h - 1) ^ 2) ≤ v
  tail : fraction (fun h => δ / (1 + δ) ≤ |Z h - 1|) ≤ q
  half : fraction (fun h => Z h ≤ 1 / 2) ≤ s
  centre_nonneg : 0 ≤ C
  centre_le : C ≤ 1.0006 * n
  near : ∀ h, |Z h - 1| < δ / (1 + δ) → |Y h - n - C * (1 / Z h - 1)| ≤ b * n
  mid : ∀ h, 1 / 2 < Z h → |Y h - n| ≤ 1.01 * n
  all : ∀ h, |Y h - n| ≤ W

section
variable {Z Y : (Fin n → Fin (2 ^ 64)) → ℝ} {C v b q s W : ℝ}

theorem inv_le_of_near {z : ℝ} (hδ : 0 < δ) (hz : |z - 1| < δ / (1 + δ)) : 1 / z ≤ 1 + δ := by
  have h1 := (abs_lt.1 hz).1
  have e : 1 - δ / (1 + δ) = 1 / (1 + δ) := by field_simp; ring
  have h2 : 1 / (1 + δ) < z := by linarith
  have h3 : 0 < 1 / (1 + δ) := by positivity
  rw [div_le_iff₀ (by linarith)]
  rw [div_lt_iff₀ (by linarith)] at h2
  linarith

open Classical in
/-- The second moment. -/
theorem Ratio.square (H : Ratio n Z Y C δ v b q s W) (hδ : 0 < δ) (hb : 0 ≤ b) {r : ℝ}
    (hr : 0 < r) (hv : v ≤ r ^ 2) :
    mean (fun h => (Y h - n) ^ 2) ≤ ((1.0006 * (1 + δ) * r + b) ^ 2 + 1.03 * q) * n ^ 2 + W ^ 2 * s := by
  have hn : (0 : ℝ) ≤ n := Nat.cast_nonneg n
  set A := 1.0006 * (1 + δ) * (n : ℝ) with hA
  have hA0 : 0 ≤ A := by positivity
  have h1 : ∀ h, (Y h - n) ^ 2 ≤ A ^ 2 * (Z h - 1) ^ 2 + 2 * A * (b * n) * |Z h - 1| + (b * n) ^ 2 +
      1.03 * n ^ 2 * (if δ / (1 + δ) ≤ |Z h - 1| then 1 else 0) +
      W ^ 2 * (if Z h ≤ 1 / 2 then 1 else 0) := by
    intro h
    have g0 : 0 ≤ A ^ 2 * (Z h - 1) ^ 2 + 2 * A * (b * n) * |Z h - 1| + (b * n) ^ 2 := by positivity
    have g1 : 0 ≤ 1.03 * (n : ℝ) ^ 2 * (if δ / (1 + δ) ≤ |Z h - 1| then 1 else 0) := by
      split <;> positivity
    have g2 : 0 ≤ W ^ 2 * (if Z h ≤ 1 / 2 then (1 : ℝ) else 0) := by split <;> positivity
    by_cases c1 : |Z h - 1| < δ / (1 + δ)
    · have a1 := H.near h c1
      have a2 : |C * (1 / Z h - 1)| ≤ A * |Z h - 1| := by
        have e : 1 / Z h - 1 = 1 / Z h * (1 - Z h) := by have := H.pos h; field_simp
        rw [e, abs_mul, abs_mul, abs_of_nonneg H.centre_nonneg, abs_sub_comm 1,
          abs_of_pos (one_div_pos.2 (H.pos h)), ← mul_assoc]
        refine mul_le_mul_of_nonneg_right ?_ (abs_nonneg _)
        have := mul_le_mul H.centre_le (inv_le_of_near hδ c1) (one_div_pos.2 (H.pos h)).le
          (by positivity)
        rw [hA]; linarith
      have a3 : |Y h - n| ≤ A * |Z h - 1| + b * n := by
        have := abs_add_le (Y h - n - C * (1 / Z h - 1)) (C * (1 / Z h - 1))
        rw [sub_add_cancel] at this
        linarith
      have a4 : (Y h - n) ^ 2 ≤ (A * |Z h - 1| + b * n) ^ 2 := by
        rw [← sq_abs]; exact pow_le_pow_left₀ (abs_nonneg _) a3 2
      have e : (A * |Z h - 1| + b * n) ^ 2 =
          A ^ 2 * (Z h - 1) ^ 2 + 2 * A * (b * n) * |Z h - 1| + (b * n) ^ 2 := by
        rw [← sq_abs (Z h - 1)]; ring
      linarith
    · rw [not_lt] at c1
      by_cases c2 : Z h ≤ 1 / 2
      · have a1 : (Y h - n) ^ 2 ≤ W ^ 2 := by
          rw [← sq_abs]; exact pow_le_pow_left₀ (abs_nonneg _) (H.all h) 2
        rw [if_pos c2] at g2 ⊢
        linarith
      · have a1 : (Y h - n) ^ 2 ≤ (1.01 * n) ^ 2 := by
          rw [← sq_abs]; exact pow_le_pow_left₀ (abs_nonneg _) (H.mid h (not_le.1 c2)) 2
        rw [if_pos c1]
        have : (1.01 * (n : ℝ)) ^ 2 ≤ 1.03 * n ^ 2 * 1 := by
          have := sq_nonneg (n : ℝ)
          rw [mul_pow]; norm_num; linarith
        linarith
  have h2 := mean_mono h1
  rw [mean_add, mean_add, mean_add, mean_add, mean_mul, mean_mul, mean_mul, mean_mul, mean_const,
    ← fraction_eq_mean, ← fraction_eq_mean] at h2
  have h3 : mean (fun h => |Z h - 1|) ≤ r := mean_abs_le hr (H.var.trans hv)
  have h4 : A ^ 2 * mean (fun h => (Z h - 1) ^ 2) ≤ A ^ 2 * r ^ 2 := by
    have := H.var.trans hv; gcongr
  have h5 : 2 * A * (b * n) * mean (fun h => |Z h - 1|) ≤ 2 * A * (b * n) * r := by gcongr
  have h6 : 1.03 * (n : ℝ) ^ 2 * fraction (fun h => δ / (1 + δ) ≤ |Z h - 1|) ≤ 1.03 * n ^ 2 * q := by
    have := H.tail; gcongr
  have h7 : W ^ 2 * fraction (fun h => Z h ≤ 1 / 2) ≤ W ^ 2 * s := by
    have := H.half; gcongr
  refine h2.trans ((add_le_add (add_le_add (add_le_add (add_le_add h4 h5) le_rfl) h6) h7).trans
    (le_of_eq ?_))
  rw [hA]; ring

open Classical in
/-- The first moment. -/
theorem Ratio.first (H : Ratio n Z Y C δ v b q s W) (hδ : 0 < δ) (hb : 0 ≤ b)
    (hn : (n : ℝ) ≤ W / 4) :
    |mean Y - n| ≤ (b + 1.0006 * (1 + δ) * v + 1.27 * q) * n + 2 * W * s := by
  have hn0 : (0 : ℝ) ≤ n := Nat.cast_nonneg n
  set A := 1.0006 * (1 + δ) * (n : ℝ) with hA
  have hA0 : 0 ≤ A := by positivity
  have h1 : ∀ h, |Y h - n - C * (1 - Z h)| ≤ A * (Z h - 1) ^ 2 + b * n +
      1.27 * n * (if δ / (1 + δ) ≤ |Z h - 1| then 1 else 0) +
      2 * W * (if Z h ≤ 1 / 2 then 1 else 0) := by
    intro h
    have hW : 0 ≤ W := by linarith
    have g0 : 0 ≤ A * (Z h - 1) ^ 2 := by positivity
    have g0' : 0 ≤ b * n := by positivity
    have g1 : 0 ≤ 1.27 * (n : ℝ) * (if δ / (1 + δ) ≤ |Z h - 1| then 1 else 0) := by
      split <;> positivity
    have g2 : 0 ≤ 2 * W * (if Z h ≤ 1 / 2 then (1 : ℝ) else 0) := by split <;> positivity
    have hz := H.pos h
    have k1 : |C * (1 - Z h)| ≤ 1.0006 * n * |Z h - 1| := by
      rw [abs_mul, abs_of_nonneg H.centre_nonneg, abs_sub_comm 1]
      exact mul_le_mul_of_nonneg_right H.centre_le (abs_nonneg _)
    have k2 : |Y h - n - C * (1 - Z h)| ≤ |Y h - n| + |C * (1 - Z h)| := abs_sub _ _
    by_cases c1 : |Z h - 1| < δ / (1 + δ)
    · have a1 := H.near h c1
      have e : Y h - n - C * (1 - Z h) =
          (Y h - n - C * (1 / Z h - 1)) + C * (1 / Z h) * (Z h - 1) ^ 2 := by field_simp; ring
      have a2 : C * (1 / Z h) * (Z h - 1) ^ 2 ≤ A * (Z h - 1) ^ 2 := by
        refine mul_le_mul_of_nonneg_right ?_ (sq_nonneg _)
        have := mul_le_mul H.centre_le (inv_le_of_near hδ c1) (one_div_pos.2 hz).le (by positivity)
        rw [hA]; linarith
      have a3 : 0 ≤ C * (1 / Z h) * (Z h - 1) ^ 2 :=
        mul_nonneg (mul_nonneg H.centre_nonneg (one_div_pos.2 hz).le) (sq_nonneg _)
      rw [e]
      have := abs_add_le (Y h - n - C * (1 / Z h - 1)) (C * (1 / Z h) * (Z h - 1) ^ 2)
      rw [abs_of_nonneg a3] at this
      linarith
    · rw [not_lt] at c1
      by_cases c2 : Z h ≤ 1 / 2
      · have a1 := H.all h
        have a2 : |Z h - 1| ≤ 1 := by rw [abs_le]; constructor <;> linarith
        have a3 : 1.0006 * (n : ℝ) * |Z h - 1| ≤ 1.0006 * n * 1 := by gcongr
        rw [if_pos c2] at g2 ⊢
        linarith
      · have a1 := H.mid h (not_le.1 c2)
        have a2 : |Z h - 1| ≤ (Z h - 1) ^ 2 + 1 / 4 := by
          rw [← sq_abs]
          nlinarith [sq_nonneg (|Z h - 1| - 1 / 2)]
        have a3 : 1.0006 * (n : ℝ) * |Z h - 1| ≤ 1.0006 * n * ((Z h - 1) ^ 2 + 1 / 4) := by gcongr
        have a4 : 1.0006 * (n : ℝ) * (Z h - 1) ^ 2 ≤ A * (Z h - 1) ^ 2 := by
          refine mul_le_mul_of_nonneg_right ?_ (sq_nonneg _)
          rw [hA]
          refine mul_le_mul_of_nonneg_right ?_ hn0
          norm_num; linarith
        rw [if_pos c1]
        linarith
  have h2 := abs_mean_le h1
  have e1 : mean (fun h => Y h - n - C * (1 - Z h)) = mean Y - n := by
    have : (fun h => Y h - n - C * (1 - Z h)) = fun h => Y h - (n + C * (1 - Z h)) := by
      funext h; ring
    rw [this, mean_sub, mean_add, mean_mul, mean_sub, mean_const, mean_const]
    have : mean (fun h => Z h) = 1 := H.one
    rw [this]; ring
  rw [e1, mean_add, mean_add, mean_add, mean_const, mean_mul, mean_mul, mean_mul,
    ← fraction_eq_mean, ← fraction_eq_mean] at h2
  have hW : 0 ≤ W := by linarith
  have h4 : A * mean (fun h => (Z h - 1) ^ 2) ≤ A * v := by have := H.var; gcongr
  have h6 : 1.27 * (n : ℝ) * fraction (fun h => δ / (1 + δ) ≤ |Z h - 1|) ≤ 1.27 * n * q := by
    have := H.tail; gcongr
  have h7 : 2 * W * fraction (fun h => Z h ≤ 1 / 2) ≤ 2 * W * s := by
    have := H.half; gcongr
  refine h2.trans ((add_le_add (add_le_add (add_le_add h4 le_rfl) h6) h7).trans (le_of_eq ?_))
  rw [hA]; ring

end

/-! ## The harmonic sum -/

/-- The harmonic sum is rarely below half of its mean. -/
theorem harm_half (hr : relVar w p n ≤ 1.15) (hp : p ≤ w) (hw : w ≤ 64) :
    fraction (fun h : Fin n → Fin (2 ^ 64) => harm w p h ≤ 1 / 2 * (2 ^ p * moment w p n (1 / 2))) ≤
      Real.exp (-(0.078 * 2 ^ p)) := by
  have he := moment_half_pos (w := w) (p := p) (n := n)
  have hm0 : (0 : ℝ) < 2 ^ p := by positivity
  set μ := moment w p n (1 / 2) with hμ
  have key := tail_sum (w := w) (p := p) (n := n) (ψ := fun k => -(0.3 / μ * ((1 / 2) ^ k - μ))) (Or.inl ?_)
      (fun j hj => mgf_lower hp hw hj (κ := 0.3) (by norm_num)) (2 ^ p * 0.15)
  · refine le_trans (fraction_mono fun h hh => ?_) (key.trans (Real.exp_le_exp.2 ?_))
    · have e : ∑ j ∈ range (2 ^ p), -(0.3 / μ * ((1 / 2) ^ reg w p (hashSet w h) j - μ)) =
          -(0.3 / μ * (harm w p h - 2 ^ p * μ)) := by
        rw [sum_neg_distrib, ← mul_sum, sum_sub_distrib, sum_const, card_range, nsmul_eq_mul, harm]
        push_cast
        rfl
      rw [e]
      have h1 : 0.3 / μ * (harm w p h - 2 ^ p * μ) ≤ 0.3 / μ * (1 / 2 * (2 ^ p * μ) - 2 ^ p * μ) := by
        gcongr
      have e2 : 0.3 / μ * (1 / 2 * (2 ^ p * μ) - 2 ^ p * μ) = -(2 ^ p * 0.15) := by
        field_simp; norm_num
      linarith
    · have hx : Real.exp 0.3 ≤ 1.37 := by
        have h1 := exp_cubic (x := 0.3) (by norm_num)
        have h3 := Real.exp_pos 0.3
        norm_num at h1 ⊢
        linarith
      have h1 : (0.3 : ℝ) ^ 2 * relVar w p n / 2 * Real.exp 0.3 ≤ 0.3 ^ 2 * 1.15 / 2 * 1.37 := by
        have : (0.3 : ℝ) ^ 2 * relVar w p n / 2 ≤ 0.3 ^ 2 * 1.15 / 2 := by gcongr
        calc _ ≤ (0.3 : ℝ) ^ 2 * 1.15 / 2 * Real.exp 0.3 := by gcongr
          _ ≤ _ := by gcongr
      have h2 : (2 : ℝ) ^ p * (0.3 ^ 2 * relVar w p n / 2 * Real.exp 0.3) ≤
          2 ^ p * (0.3 ^ 2 * 1.15 / 2 * 1.37) := by gcongr
      have h3 : (0.3 : ℝ) ^ 2 * 1.15 / 2 * 1.37 - 0.15 ≤ -0.078 := by norm_num
      calc (2 : ℝ) ^ p * (0.3 ^ 2 * relVar w p n / 2 * Real.exp 0.3) - 2 ^ p * 0.15
          ≤ 2 ^ p * (0.3 ^ 2 * 1.15 / 2 * 1.37) - 2 ^ p * 0.15 := by linarith
        _ = 2 ^ p * (0.3 ^ 2 * 1.15 / 2 * 1.37 - 0.15) := by ring
        _ ≤ 2 ^ p * -0.078 := by gcongr
        _ = _ := by ring
  · intro a b hab
    have : (1 / 2 : ℝ) ^ b ≤ (1 / 2) ^ a := pow_le_pow_of_le_one (by norm_num) (by norm_num) hab
    have h0 : 0 ≤ 0.3 / μ := by positivity
    simp only [neg_le_neg_iff]
    gcongr

/-! ## The estimate -/

/-- The range of the estimate: it is the raw estimate or about `6 m` at most. -/
theorem plusCount_range (hln : LnSpec ln) (v : Search) (hp1 : 4 ≤ p) (hp2 : p ≤ 18) {S : Finset Nat} :
    ∃ y : ℚ, plusCount ln (Plus.biasOf v) p S = fin y ∧ 0 ≤ y ∧ y ≤ 187 * 2 ^ 57 ∧
      (y ≤ 6 * 2 ^ p + 3 ∨ y = rawQ p (hsum 0 (regs 64 p S))) := by
  have hM : Regs p (regs 64 p S) := regs_regs _ (by omega)
  have hm16 : (16 : ℚ) ≤ 2 ^ p := by
    calc (16 : ℚ) = 2 ^ 4 := by norm_num
      _ ≤ 2 ^ p := pow_le_pow_right₀ (by norm_num) hp1
  have hm18 : (2 : ℚ) ^ p ≤ 2 ^ 18 := pow_le_pow_right₀ (by norm_num) hp2
  have hcl : (regs 64 p S).count 0 ≤ 2 ^ p := by rw [← hM.length]; exact List.count_le_length
  have hclQ : ((regs 64 p S).count 0 : ℚ) ≤ 2 ^ p := by exact_mod_cast hcl
  obtain ⟨y, h1, h2, h3, -⟩ := plusDense_bounds hln (v := v) hp1 hp2 hM (by
    intro r hr
    obtain ⟨j, _, rfl⟩ := List.mem_map.1 hr
    have := reg_le 64 p S j
    omega)
  have hy0 : 0 ≤ y := le_trans (by norm_num; linarith) h2
  by_cases hf : fitsSparse p S
  · have hcard := card_le_encSize (codes p S)
    have hcap := capacity_le hp2
    have hf' := hf
    unfold fitsSparse at hf'
    rw [plusCount, if_pos hf]
    rcases Nat.eq_zero_or_pos (codes p S).card with h0 | h0
    · rw [h0, Nat.sub_zero, linear_self hln (by norm_num) le_rfl]
      exact ⟨0, rfl, le_rfl, by norm_num, Or.inl (by positivity)⟩
    · obtain ⟨y, k1, k2, k3, _⟩ := sparse_bounds hln h0 (by omega : (codes p S).card ≤ 2 ^ 18)
      have hcm : (codes p S).card ≤ 2 ^ p := by
        unfold capacity at hf'; omega
      have hcQ : ((codes p S).card : ℚ) ≤ 2 ^ p := by exact_mod_cast hcm
      have hc0 : (1 : ℚ) ≤ (codes p S).card := by exact_mod_cast h0
      generalize ((codes p S).card : ℚ) = c at *
      have h4 : y ≤ 2 * c := by
        refine k3.trans ?_
        rw [div_le_iff₀ (by norm_num at *; linarith)]
        norm_num at *
        nlinarith
      refine ⟨y, k1, by linarith, by norm_num at *; linarith, Or.inl (by linarith)⟩
  have hd : plusCount ln (Plus.biasOf v) p S = fin y := by rw [plusCount, if_neg hf, h1]
  refine ⟨y, hd, hy0, h3, ?_⟩
  rcases plusRegime_cases v ln hp1 hp2 S with
    ⟨_, a2, _⟩ | ⟨_, a2, a3, a4, a5⟩ | ⟨_, a3, ⟨_, a4, a5⟩ | ⟨_, a4, a5⟩⟩
  · exact absurd a2 hf
  · left
    rw [hd] at a5
    rw [← a5, num, le_fin] at a4
    have : ((threshold p : ℕ) : ℚ) ≤ ((5 * 2 ^ p : ℕ) : ℚ) := by exact_mod_cast threshold_le hp1 hp2
    push_cast at this
    linarith
  · left
    obtain ⟨β, c1, c2, -⟩ := Plus.corrected_eq (v := v) hp1 hp2 (rnd_rnd _) (hM.raw_bounds hp1 hp2).1 a4
    have e : y = rnd (rawQ p (hsum 0 (regs 64 p S)) - β) := fin.inj ((hd.symm.trans a5).trans c2)
    have hb := (abs_le.1 (c1.abs_le hp1 hp2)).1
    rw [e]
    refine (rnd_mono (show rawQ p (hsum 0 (regs 64 p S)) - β ≤ ((6 * 2 ^ p + 2 : ℕ) : ℚ) by
      push_cast; linarith)).trans ?_
    have h18 : 2 ^ p ≤ 2 ^ 18 := Nat.pow_le_pow_right (by norm_num) hp2
    rw [rnd_natCast (by omega)]
    push_cast
    linarith
  · right
    rw [hd] at a5
    exact fin.inj a5

/-- The raw estimate is `C/Z` up to rounding. -/
theorem raw_ratio (hp1 : 4 ≤ p) (hp2 : p ≤ 18) (hw : w - p < 63) (h : Fin n → Fin (2 ^ 64)) :
    |(rawQ p (hsum 0 (regs w p (hashSet w h))) : ℝ) -
        centre w p n * (1 / (harm w p h / (2 ^ p * moment w p n (1 / 2))))| ≤
      centre w p n * (1 / (harm w p h / (2 ^ p * moment w p n (1 / 2)))) / 2 ^ 32 := by
  have hM : Regs p (regs w p (hashSet w h)) := regs_regs _ hw
  obtain ⟨hH, hr⟩ := raw_rel hp1 hp2 hM
  have he := moment_half_pos (w := w) (p := p) (n := n)
  have hH' : 0 < harm w p h := by rw [← harm_eq]; exact_mod_cast hH
  have hr' := (Rat.cast_le (K := ℝ)).2 hr
  push_cast at hr'
  rw [harm_eq] at hr'
  have hE : (alphaQ p : ℝ) * (2 ^ p * 2 ^ p) / harm w p h =
      centre w p n * (1 / (harm w p h / (2 ^ p * moment w p n (1 / 2)))) := by
    unfold centre; field_simp
  rw [hE] at hr'
  exact hr'

/-- The estimate of HyperLogLog++ for `6 m` to `2^59` values. -/
theorem ratio_plus (hln : LnSpec ln) (v : Search) (h1 : 8 ≤ p) (h2 : p ≤ 18) (hn6 : 6 * 2 ^ p < n)
    (hn : n ≤ 2 ^ 59) (hδ0 : 0 < δ) (hδ : δ ≤ 1 / 10) {y : (Fin n → Fin (2 ^ 64)) → ℚ}
    (hy : ∀ h, plusCount ln (Plus.biasOf v) p (hashSet 64 h) = fin (y h)) :
    Ratio n (fun h => harm 64 p h / (2 ^ p * moment 64 p n (1 / 2))) (fun h => (y h : ℝ))
      (centre 64 p n) δ ((1.09 + 4 / 2 ^ p) / 2 ^ p) (0.000651 + 1.1 / 2 ^ p)
      (2 * Real.exp (-(2 ^ p * δ ^ 2 / 4))) (Real.exp (-(0.078 * 2 ^ p))) (187 * 2 ^ 57) := by
  have hm := m_ge h1
  have hn5 : 5 * 2 ^ p ≤ n := by omega
  obtain ⟨c1, c2, c3⟩ := centre_near (w := 64) (by omega) h2 (by omega) hn5 (by omega)
  have hC := centre_pos (w := 64) (n := n) (p := p) (by omega) h2
  have he := moment_half_pos (w := 64) (p := p) (n := n)
  have hm0 : (0 : ℝ) < 2 ^ p := by positivity
  have hl := loaded_high (w := 64) h1 h2 (by omega) le_rfl hn5 (by omega)
  have hn6' : 6 * (2 : ℝ) ^ p < n := by exact_mod_cast hn6
  have hn0 : (0 : ℝ) < n := by linarith
  have hn59 : (n : ℝ) ≤ 2 ^ 59 := by exact_mod_cast hn
  have hw4 : 1.1 / (2 : ℝ) ^ p ≤ 1.1 / 256 := by gcongr
  have hpos : ∀ h : Fin n → Fin (2 ^ 64), 0 < harm 64 p h := fun h => by
    rw [← harm_eq]
    exact_mod_cast (raw_rel (by omega) h2 (regs_regs (hashSet 64 h) (by omega))).1
  have hraw := fun h => raw_ratio (w := 64) (n := n) (p := p) (by omega) h2 (by omega) h
  have hvar := variance_harm (w := 64) (p := p) n (by omega) (by omega) le_rfl
  have hdev : ∀ {h : Fin n → Fin (2 ^ 64)},
      |harm 64 p h / (2 ^ p * moment 64 p n (1 / 2)) - 1| =
        |harm 64 p h - 2 ^ p * moment 64 p n (1 / 2)| / (2 ^ p * moment 64 p n (1 / 2)) := by
    intro h
    rw [← abs_of_pos (by positivity : 0 < 2 ^ p * moment 64 p n (1 / 2)), ← abs_div,
      abs_of_pos (by positivity : 0 < 2 ^ p * moment 64 p n (1 / 2))]
    congr 1
    field_simp
  refine ⟨fun h => ?_, ?_, ?_, ?_, ?_, hC.le, c2, fun h hz => ?_, fun h hz => ?_, fun h => ?_⟩
  · have := hpos h; positivity
  · have e : (fun h : Fin n → Fin (2 ^ 64) => harm 64 p h / (2 ^ p * moment 64 p n (1 / 2))) =
        fun h => 1 / (2 ^ p * moment 64 p n (1 / 2)) * harm 64 p h := by funext h; ring
    rw [e, mean_mul, mean_harm n (by omega) le_rfl]
    field_simp
  · have e : (fun h : Fin n → Fin (2 ^ 64) => (harm 64 p h / (2 ^ p * moment 64 p n (1 / 2)) - 1) ^ 2) =
        fun h => 1 / (2 ^ p * moment 64 p n (1 / 2)) ^ 2 *
          (harm 64 p h - 2 ^ p * moment 64 p n (1 / 2)) ^ 2 := by
      funext h; field_simp
    rw [e, mean_mul]
    have h3 : 1 / (2 ^ p * moment 64 p n (1 / 2)) ^ 2 *
        mean (fun h : Fin n → Fin (2 ^ 64) => (harm 64 p h - 2 ^ p * moment 64 p n (1 / 2)) ^ 2) ≤
        1 / (2 ^ p * moment 64 p n (1 / 2)) ^ 2 *
          (2 ^ p * (moment 64 p n (1 / 4) - moment 64 p n (1 / 2) ^ 2)) := by gcongr
    refine h3.trans ?_
    have e2 : 1 / (2 ^ p * moment 64 p n (1 / 2)) ^ 2 *
          (2 ^ p * (moment 64 p n (1 / 4) - moment 64 p n (1 / 2) ^ 2)) = relVar 64 p n / 2 ^ p := by
      unfold relVar; field_simp
    rw [e2]
    gcongr
  · refine le_trans (fraction_mono fun h hh => ?_) (harm_tail hl (by omega) le_rfl hδ0 hδ)
    rw [hdev, le_div_iff₀ (by positivity)] at hh
    exact hh
  · refine le_trans (fraction_mono fun h hh => ?_) (harm_half hl.var (by omega) le_rfl)
    rw [div_le_iff₀ (by positivity)] at hh
    exact hh
  · have hz' := hz
    rw [hdev, div_lt_iff₀ (by positivity)] at hz'
    have hcon := raw_near (w := 64) (by omega) h2 (by omega) (by omega) hn5 (by omega) hδ0
      (by linarith) hz'
    have h3 : (0.89 : ℝ) * n ≤ (1 - (δ + 1.1 / 2 ^ p + 0.001)) * n := by
      refine mul_le_mul_of_nonneg_right ?_ hn0.le
      norm_num at hw4 hδ ⊢; linarith
    have h4 := (abs_le.1 hcon).1
    have h6 : ((5 * (2 : ℚ) ^ p : ℚ) : ℝ) < (rawQ p (hsum 0 (regs 64 p (hashSet 64 h))) : ℝ) := by
      push_cast
      generalize 1.1 / (2 : ℝ) ^ p = ω at *
      norm_num at h3 h4
      linarith
    have e : y h = rawQ p (hsum 0 (regs 64 p (hashSet 64 h))) := fin.inj
      ((hy h).symm.trans (plusCount_raw hln v (by omega) h2 (hashSet_lt h) (by exact_mod_cast h6)))
    have hr := hraw h
    have hinv := inv_le_of_near hδ0 hz
    have hzp : 0 < harm 64 p h / (2 ^ p * moment 64 p n (1 / 2)) := by have := hpos h; positivity
    rw [e]
    generalize harm 64 p h / (2 ^ p * moment 64 p n (1 / 2)) = z at *
    generalize (rawQ p (hsum 0 (regs 64 p (hashSet 64 h))) : ℝ) = Y at *
    have h7 : centre 64 p n * (1 / z) ≤ 1.0006 * n * (1 + 1 / 10) := by
      refine mul_le_mul c2 (hinv.trans (by linarith)) (by positivity) (by positivity)
    have h8 : 0 ≤ centre 64 p n * (1 / z) := by positivity
    have e4 : (1 - 0.00065 - 1.1 / 2 ^ p) * (n : ℝ) = n - 0.00065 * n - 1.1 / 2 ^ p * n := by ring
    have e5 : (0.000651 + 1.1 / 2 ^ p) * (n : ℝ) = 0.000651 * n + 1.1 / 2 ^ p * n := by ring
    have e6 : 0 ≤ 1.1 / (2 : ℝ) ^ p * n := by positivity
    rw [e4] at c1
    rw [mul_sub, mul_one, e5, abs_le]
    obtain ⟨r1, r2⟩ := abs_le.1 hr
    generalize centre 64 p n * (1 / z) = x at *
    generalize 1.1 / (2 : ℝ) ^ p * n = ω at *
    generalize centre 64 p n = c at *
    norm_num at r1 r2 c1 c2 h7 ⊢
    constructor <;> linarith
  · obtain ⟨Y, k1, k2, _, k3⟩ := plusCount_range hln v (p := p) (by omega) h2 (S := hashSet 64 h)
    have e : y h = Y := fin.inj ((hy h).symm.trans k1)
    rw [e]
    have k2' : (0 : ℝ) ≤ Y := by exact_mod_cast k2
    have hup : (Y : ℝ) ≤ 2.01 * n := by
      rcases k3 with k3 | k3
      · have k3' := (Rat.cast_le (K := ℝ)).2 k3
        push_cast at k3'
        norm_num; linarith
      · have hr := hraw h
        rw [← k3] at hr
        have hinv : 1 / (harm 64 p h / (2 ^ p * moment 64 p n (1 / 2))) ≤ 2 := by
          rw [div_le_iff₀ (by linarith)]; linarith
        have hzp : 0 < harm 64 p h / (2 ^ p * moment 64 p n (1 / 2)) := by linarith
        generalize harm 64 p h / (2 ^ p * moment 64 p n (1 / 2)) = z at *
        have h7 : centre 64 p n * (1 / z) ≤ 1.0006 * n * 2 :=
          mul_le_mul c2 hinv (by positivity) (by positivity)
        generalize centre 64 p n * (1 / z) = x at *
        have r2 := (abs_le.1 hr).2
        norm_num at r2 h7 ⊢
        linarith
    rw [abs_le]
    norm_num at hup ⊢
    constructor <;> linarith
  · obtain ⟨Y, k1, k2, k3, _⟩ := plusCount_range hln v (p := p) (by omega) h2 (S := hashSet 64 h)
    have e : y h = Y := fin.inj ((hy h).symm.trans k1)
    rw [e]
    have k2' : (0 : ℝ) ≤ Y := by exact_mod_cast k2
    have k3' := (Rat.cast_le (K := ℝ)).2 k3
    push_cast at k3'
    have e : (2 : ℝ) ^ 59 ≤ 187 * 2 ^ 57 := by norm_num
    rw [abs_le]
    constructor <;> linarith

end HLL
