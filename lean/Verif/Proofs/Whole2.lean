import Verif.Proofs.Whole

/-! # The events used for the accuracy over the whole range -/

namespace HLL
open F64 Spec Exps

section
variable {p n : Nat} {δ : ℝ}

theorem m_ge (hp1 : 8 ≤ p) : (256 : ℝ) ≤ 2 ^ p := by
  calc (256 : ℝ) = 2 ^ 8 := by norm_num
    _ ≤ 2 ^ p := pow_le_pow_right₀ (by norm_num) hp1

theorem m_le (hp2 : p ≤ 18) : (2 : ℝ) ^ p ≤ 2 ^ 18 := pow_le_pow_right₀ (by norm_num) hp2

/-! ## The raw estimate for up to `6 m` values -/

theorem relVar_le {w : Nat} (hw : p + 16 ≤ w) (hp1 : 8 ≤ p) (hp2 : p ≤ 18) (hn : n ≤ 6 * 2 ^ p) : relVar w p n ≤ 1.15 := by
  have hl6 : (n : ℝ) / 2 ^ p ≤ 6 := by rw [div_le_iff₀ (by positivity)]; exact_mod_cast hn
  have hl := local_bounds (x := (n : ℝ) / 2 ^ p) (by positivity) hl6
  obtain ⟨h1, -⟩ := moment_half_bounds (w := w) (p := p) (n := n) (by omega) hp2 hw hn
  have h2 := moment_quarter_bound (w := w) (p := p) (n := n) hw
  have hE := E_pos ((n : ℝ) / 2 ^ p)
  have hw' : 1.5 / (2 : ℝ) ^ p ≤ 1.5 / 256 := by have := m_ge hp1; gcongr
  have h3 := hl.second
  unfold relVar
  generalize moment w p n (1 / 4) = a at *
  generalize moment w p n (1 / 2) = b at *
  generalize E ((n : ℝ) / 2 ^ p) = e at *
  have h4 : 0.994 * e ≤ b := by
    refine le_trans (mul_le_mul_of_nonneg_right ?_ hE.le) h1
    norm_num at hw' ⊢; linarith
  have hb : 0 < b := lt_of_lt_of_le (by positivity) h4
  have h5 : a ≤ 2.15 * b ^ 2 := by
    have h6 : (0.994 * e) ^ 2 ≤ b ^ 2 := pow_le_pow_left₀ (by positivity) h4 2
    have h7 : 2.12 * e ^ 2 ≤ 2.15 * (0.994 * e) ^ 2 := by rw [mul_pow]; norm_num; nlinarith [sq_nonneg e]
    norm_num at *; linarith
  have : a / b ^ 2 ≤ 2.15 := by rw [div_le_iff₀ (by positivity)]; exact h5
  norm_num at *; linarith

/-- The raw estimate in the good case. -/
theorem raw_range {b : Nat} (hb : p + 16 ≤ b) (hp1 : 8 ≤ p) (hp2 : p ≤ 18) (hn : n ≤ 6 * 2 ^ p) (hδ0 : 0 < δ) (hδ : δ ≤ 1 / 10)
    {raw : ℝ} (h : |raw - centre b p n| ≤ (δ + (1 + δ) / 2 ^ 32) * centre b p n) :
    (1 - (δ + 1.7 / 2 ^ p)) * (alphaQ p * 2 ^ p) ≤ raw * E (n / 2 ^ p) ∧
      raw * E (n / 2 ^ p) ≤ (1 + (δ + 1.7 / 2 ^ p)) * (alphaQ p * 2 ^ p) := by
  have hα : (0 : ℝ) < alphaQ p := by
    have : (0 : ℚ) < alphaQ p := by linarith [(alpha_facts (p := p) (by omega) hp2).2.1]
    exact_mod_cast this
  obtain ⟨h1, h2⟩ := moment_half_bounds (w := b) (p := p) (n := n) (by omega) hp2 hb hn
  have hE := E_pos ((n : ℝ) / 2 ^ p)
  have hM := moment_half_pos (w := b) (p := p) (n := n)
  have hA : (0 : ℝ) < alphaQ p * 2 ^ p := by positivity
  have hm := m_ge hp1
  have hm2 := m_le hp2
  have hw0 : 1 / 2 ^ 18 ≤ 1 / (2 : ℝ) ^ p := by gcongr
  have hw : 1 / (2 : ℝ) ^ p ≤ 1 / 256 := by gcongr
  have e1 : 1.5 / (2 : ℝ) ^ p = 1.5 * (1 / 2 ^ p) := by ring
  have e2 : 1.7 / (2 : ℝ) ^ p = 1.7 * (1 / 2 ^ p) := by ring
  rw [e1] at h1
  rw [e2]
  unfold centre at h
  generalize (alphaQ p : ℝ) * 2 ^ p = A at *
  generalize 1 / (2 : ℝ) ^ p = w at *
  generalize moment b p n (1 / 2) = M at *
  generalize E ((n : ℝ) / 2 ^ p) = e at *
  obtain ⟨h3, h4⟩ := abs_le.1 h
  have r1 : 1 ≤ e / M := by rw [le_div_iff₀ hM]; linarith
  have r2 : (1 - 1.5 * w) * (e / M) ≤ 1 := by
    rw [← mul_div_assoc, div_le_one hM]; exact h1
  have c1 : (1 - (δ + (1 + δ) / 2 ^ 32)) * A * (e / M) ≤ raw * e := by
    have : (1 - (δ + (1 + δ) / 2 ^ 32)) * (A / M) ≤ raw := by linarith
    calc _ = (1 - (δ + (1 + δ) / 2 ^ 32)) * (A / M) * e := by ring
      _ ≤ raw * e := mul_le_mul_of_nonneg_right this hE.le
  have c2 : raw * e ≤ (1 + (δ + (1 + δ) / 2 ^ 32)) * A * (e / M) := by
    have : raw ≤ (1 + (δ + (1 + δ) / 2 ^ 32)) * (A / M) := by linarith
    calc raw * e ≤ (1 + (δ + (1 + δ) / 2 ^ 32)) * (A / M) * e := mul_le_mul_of_nonneg_right this hE.le
      _ = _ := by ring
  constructor
  · refine le_trans ?_ c1
    have h5 : (1 - (δ + 1.7 * w)) * A ≤ (1 - (δ + (1 + δ) / 2 ^ 32)) * A := by
      refine mul_le_mul_of_nonneg_right ?_ hA.le
      norm_num at *; linarith
    have h6 : 0 ≤ (1 - (δ + (1 + δ) / 2 ^ 32)) * A := mul_nonneg (by norm_num; linarith) hA.le
    nlinarith
  · refine c2.trans ?_
    have h5 : 1 + (δ + (1 + δ) / 2 ^ 32) ≤ (1 + (δ + 1.7 * w)) * (1 - 1.5 * w) := by
      norm_num at *; nlinarith
    have h6 : 0 ≤ e / M := by linarith
    calc (1 + (δ + (1 + δ) / 2 ^ 32)) * A * (e / M) ≤
          (1 + (δ + 1.7 * w)) * (1 - 1.5 * w) * A * (e / M) := by gcongr
      _ = (1 + (δ + 1.7 * w)) * A * ((1 - 1.5 * w) * (e / M)) := by ring
      _ ≤ (1 + (δ + 1.7 * w)) * A * 1 := by
          refine mul_le_mul_of_nonneg_left r2 (mul_nonneg ?_ hA.le)
          norm_num at *; linarith
      _ = _ := mul_one _

/-! ## Linear counting -/

/-- The deviation of the zero counter that is allowed for up to `2 m` values. -/
noncomputable def zdev (p n : Nat) (δ : ℝ) : ℝ :=
  δ * (n / 2 ^ p + 1.6) / (1 + δ * (n / 2 ^ p + 1.6)) * (2 ^ p * (1 - 1 / 2 ^ p) ^ n)

theorem q_pos (hp1 : 8 ≤ p) : (0 : ℝ) < (1 - 1 / 2 ^ p) ^ n := by
  have h : (1 : ℝ) / 2 ^ p ≤ 1 / 256 := by have := m_ge hp1; gcongr
  apply pow_pos
  norm_num at h ⊢
  linarith

theorem zdev_facts (hp1 : 8 ≤ p) (hδ0 : 0 < δ) : 0 < zdev p n δ ∧
    zdev p n δ < 2 ^ p * (1 - 1 / 2 ^ p) ^ n ∧
    2 ^ p * zdev p n δ / (2 ^ p * (1 - 1 / 2 ^ p) ^ n - zdev p n δ) = δ * (n + 1.6 * 2 ^ p) := by
  unfold zdev
  have hq := q_pos (p := p) (n := n) hp1
  have hm : (0 : ℝ) < 2 ^ p := by positivity
  have hu : 0 < δ * ((n : ℝ) / 2 ^ p + 1.6) := by positivity
  have e : δ * ((n : ℝ) + 1.6 * 2 ^ p) = δ * ((n : ℝ) / 2 ^ p + 1.6) * 2 ^ p := by field_simp
  rw [e]
  generalize δ * ((n : ℝ) / 2 ^ p + 1.6) = u at *
  have hμ : (0 : ℝ) < 2 ^ p * (1 - 1 / 2 ^ p) ^ n := by positivity
  generalize (2 : ℝ) ^ p * (1 - 1 / 2 ^ p) ^ n = μ at *
  have h1 : u / (1 + u) < 1 := by rw [div_lt_one (by linarith)]; linarith
  refine ⟨by positivity, by nlinarith, ?_⟩
  have h2 : μ - u / (1 + u) * μ = μ / (1 + u) := by field_simp; ring
  rw [h2]
  field_simp

theorem lin_err (hp1 : 8 ≤ p) (hp2 : p ≤ 18) (hδ0 : 0 < δ) (hδ : δ ≤ 1 / 10) :
    linErrF p n (zdev p n δ) ≤ (δ + 1.02 / 2 ^ p) * (n + 1.6 * 2 ^ p) := by
  unfold linErrF linErr
  rw [(zdev_facts hp1 hδ0).2.2]
  have hm := m_ge hp1
  have hm2 := m_le hp2
  have hn : (0 : ℝ) ≤ n := Nat.cast_nonneg _
  have h1 : (n : ℝ) / (2 ^ p - 1) ≤ 1.004 / 2 ^ p * n := by
    rw [div_mul_eq_mul_div, div_le_div_iff₀ (by linarith) (by positivity)]
    norm_num at *; nlinarith
  have e1 : 1.004 / (2 : ℝ) ^ p = 1.004 * (1 / 2 ^ p) := by ring
  have e2 : 1.02 / (2 : ℝ) ^ p = 1.02 * (1 / 2 ^ p) := by ring
  have hw0 : 1 / 2 ^ 18 ≤ 1 / (2 : ℝ) ^ p := by gcongr
  have hw : 1 / (2 : ℝ) ^ p ≤ 1 / 256 := by gcongr
  rw [e1] at h1
  rw [e2]
  generalize (n : ℝ) / (2 ^ p - 1) = a at *
  generalize 1 / (2 : ℝ) ^ p = w at *
  set s := (n : ℝ) + 1.6 * 2 ^ p with hs
  have hns : (n : ℝ) + 1 ≤ s := by rw [hs]; norm_num; linarith
  have hs0 : 0 < s := by linarith
  clear_value s
  have ha : a ≤ 1.004 * w * s := h1.trans (mul_le_mul_of_nonneg_left (by linarith) (by norm_num at *; linarith))
  have h3 : δ * s ≤ 1 / 10 * s := mul_le_mul_of_nonneg_right hδ hs0.le
  have h4 : w * s ≤ 1 / 256 * s := mul_le_mul_of_nonneg_right hw hs0.le
  have h5 : 1 / 2 ^ 18 * s ≤ w * s := mul_le_mul_of_nonneg_right hw0 hs0.le
  have e3 : (δ + 1.02 * w) * s = δ * s + 1.02 * (w * s) := by ring
  have e4 : 1.004 * w * s = 1.004 * (w * s) := by ring
  rw [e3]
  rw [e4] at ha
  generalize w * s = x at *
  generalize δ * s = y at *
  norm_num at *
  linarith

theorem exp_two_le : Real.exp 2 ≤ 7.3892 := by
  have h := Real.exp_one_lt_d9
  have e : Real.exp 2 = Real.exp 1 * Real.exp 1 := by rw [← Real.exp_add]; norm_num
  rw [e]
  have h0 := Real.exp_pos 1
  norm_num at h ⊢
  nlinarith

theorem exp_chord {x : ℝ} (h0 : 0 ≤ x) (h2 : x ≤ 2) : Real.exp x ≤ 1 + 3.1946 * x := by
  have tangent : ∀ u z : ℝ, Real.exp z * (1 + (u - z)) ≤ Real.exp u := by
    intro u z
    have h3 : Real.exp u = Real.exp z * Real.exp (u - z) := by rw [← Real.exp_add]; congr 1; ring
    rw [h3]
    exact mul_le_mul_of_nonneg_left (by linarith [Real.add_one_le_exp (u - z)]) (Real.exp_pos z).le
  have t1 := mul_le_mul_of_nonneg_left (tangent 0 x) (by linarith : 0 ≤ 1 - x / 2)
  have t2 := mul_le_mul_of_nonneg_left (tangent 2 x) (by linarith : 0 ≤ x / 2)
  rw [Real.exp_zero] at t1
  have h3 := mul_le_mul_of_nonneg_left exp_two_le (by linarith : 0 ≤ x / 2)
  norm_num at h3 ⊢
  nlinarith

theorem zeros_prob_arith {l q m : ℝ} (hl0 : 0 ≤ l) (hl2 : l ≤ 2) (hm : 256 ≤ m) (hq0 : 0 < q)
    (hq : Real.exp (-l) * (1 - l / m) ≤ q) (hδ0 : 0 < δ) (hδ : δ ≤ 1 / 10) :
    m * (q * (1 - q)) / (δ * (l + 1.6) / (1 + δ * (l + 1.6)) * (m * q)) ^ 2 ≤ 0.95 / (m * δ ^ 2) := by
  have hm0 : 0 < m := by linarith
  have hs0 : 0 < l + 1.6 := by norm_num; linarith
  have h1 : (1 - q) / q ≤ 0.0079 + 3.2199 * l := by
    have h2 : 1 ≤ (1.0079 + 3.2199 * l) * q := by
      have h3 := exp_chord hl0 hl2
      have h4 : 1 - 2 / 256 ≤ 1 - l / m := by
        have : l / m ≤ 2 / 256 := by gcongr
        linarith
      have h5 : Real.exp (-l) * (1 - 2 / 256) ≤ q :=
        (mul_le_mul_of_nonneg_left h4 (Real.exp_pos _).le).trans hq
      have h6 : Real.exp l * Real.exp (-l) = 1 := by rw [← Real.exp_add]; simp
      have h7 : 1 ≤ (1 + 3.1946 * l) * Real.exp (-l) :=
        h6.symm.le.trans (mul_le_mul_of_nonneg_right h3 (Real.exp_pos _).le)
      have h8 := Real.exp_pos (-l)
      generalize Real.exp (-l) = e at *
      have h9 : (1.0079 + 3.2199 * l) * (e * (1 - 2 / 256)) ≤ (1.0079 + 3.2199 * l) * q :=
        mul_le_mul_of_nonneg_left h5 (by norm_num; linarith)
      refine le_trans ?_ h9
      norm_num at *
      nlinarith [mul_nonneg hl0 h8.le]
    rw [div_le_iff₀ hq0]
    norm_num at *; linarith
  have h2 : (1 + δ * (l + 1.6)) ^ 2 ≤ (1 + 1 / 10 * (l + 1.6)) ^ 2 := by gcongr
  have e : m * (q * (1 - q)) / (δ * (l + 1.6) / (1 + δ * (l + 1.6)) * (m * q)) ^ 2 =
      (1 - q) / q * (1 + δ * (l + 1.6)) ^ 2 / (l + 1.6) ^ 2 / (m * δ ^ 2) := by
    field_simp
  rw [e]
  have h3 : (1 - q) / q * (1 + δ * (l + 1.6)) ^ 2 / (l + 1.6) ^ 2 ≤ 0.95 := by
    rw [div_le_iff₀ (by positivity)]
    have h0 : 0 ≤ 0.0079 + 3.2199 * l := by positivity
    calc (1 - q) / q * (1 + δ * (l + 1.6)) ^ 2 ≤ (0.0079 + 3.2199 * l) * (1 + 1 / 10 * (l + 1.6)) ^ 2 := by
          gcongr
      _ ≤ _ := by
        norm_num
        nlinarith [mul_nonneg hl0 (sub_nonneg.2 hl2), mul_nonneg hl0 (mul_nonneg hl0 (sub_nonneg.2 hl2))]
  gcongr

/-- `(1 - 1/m)^n` for up to `2 m` values. -/
theorem q_lower (hp1 : 8 ≤ p) :
    Real.exp (-((n : ℝ) / 2 ^ p)) * (1 - n / 2 ^ p / 2 ^ p) ≤ (1 - 1 / 2 ^ p) ^ n := by
  have hx : (1 : ℝ) / 2 ^ p ≤ 1 / 256 := by have := m_ge hp1; gcongr
  have h := exp_le_pow (x := 1 / 2 ^ p) (by positivity) (hx.trans (by norm_num)) n
  have e1 : (n : ℝ) * (1 / 2 ^ p) = n / 2 ^ p := by ring
  have e2 : (n : ℝ) * (1 / 2 ^ p) ^ 2 = n / 2 ^ p / 2 ^ p := by field_simp
  rwa [e1, e2] at h

theorem q_upper (hp1 : 8 ≤ p) : (1 - 1 / (2 : ℝ) ^ p) ^ n ≤ Real.exp (-((n : ℝ) / 2 ^ p)) := by
  have hx : (1 : ℝ) / 2 ^ p ≤ 1 / 256 := by have := m_ge hp1; gcongr
  have h := pow_le_exp (x := 1 / 2 ^ p) (hx.trans (by norm_num)) n
  have e1 : (n : ℝ) * (1 / 2 ^ p) = n / 2 ^ p := by ring
  rwa [e1] at h

theorem exp_neg_two_le : Real.exp (-2) ≤ 0.1354 := by
  have h := Real.exp_one_gt_d9
  have e : Real.exp 2 = Real.exp 1 * Real.exp 1 := by rw [← Real.exp_add]; norm_num
  rw [Real.exp_neg, e, inv_le_comm₀ (by positivity) (by norm_num)]
  norm_num at h ⊢
  nlinarith

/-! ## Distinct prefixes of 25 bits -/

theorem prefixes_le_codes {S : Finset Nat} :
    2 ^ 25 ≤ zeros 64 25 S + (codes p S).card := by
  classical
  have h1 : zeros 64 25 S + ((Finset.range (2 ^ 25)).filter fun j => ¬ reg 64 25 S j = 0).card = 2 ^ 25 := by
    have := Finset.card_filter_add_card_filter_not (s := Finset.range (2 ^ 25))
      (fun j => reg 64 25 S j = 0)
    rw [Finset.card_range] at this
    exact this
  have h2 : ((Finset.range (2 ^ 25)).filter fun j => ¬ reg 64 25 S j = 0).card ≤
      (codes p S).card := by
    have hj : ∀ j ∈ (Finset.range (2 ^ 25)).filter fun j => ¬ reg 64 25 S j = 0,
        ∃ h ∈ S, bucket 64 25 h = j := by
      intro j hj
      rw [Finset.mem_filter] at hj
      by_contra hne
      apply hj.2
      unfold reg
      rw [Finset.filter_eq_empty_iff.2 fun h hh hb => hne ⟨h, hh, hb⟩, Finset.sup_empty]; rfl
    choose! f hf1 hf2 using hj
    refine Finset.card_le_card_of_injOn (fun j => code p (f j))
      (fun j hj => Finset.mem_image_of_mem _ (hf1 j hj)) ?_
    intro i hi j hj hij
    have := prefix_of_code hij
    have e1 := hf2 i hi
    have e2 := hf2 j hj
    unfold bucket at e1 e2
    rw [show 64 - 25 = 39 from rfl] at e1 e2
    rw [← e1, ← e2]; exact this
  omega

theorem pow_le_quad {x : ℝ} (h0 : 0 ≤ x) (h1 : x ≤ 1) (n : Nat) :
    (1 - x) ^ n ≤ 1 - n * x + (n * x) ^ 2 / 2 := by
  refine (pow_le_exp h1 n).trans ?_
  have hd : 0 ≤ (n : ℝ) * x := by positivity
  generalize (n : ℝ) * x = d at *
  have h3 := Real.quadratic_le_exp_of_nonneg hd
  have h6 : 0 < 1 - d + d ^ 2 / 2 := by nlinarith [sq_nonneg (d - 1)]
  have h5 : 1 ≤ (1 - d + d ^ 2 / 2) * (1 + d + d ^ 2 / 2) := by nlinarith [sq_nonneg (d ^ 2)]
  rw [Real.exp_neg, inv_le_comm₀ (Real.exp_pos d) h6]
  refine le_trans ?_ h3
  rw [inv_le_iff_one_le_mul₀ h6]
  linarith

theorem codes_prob_arith (hδ0 : 0 < δ) :
    2 ^ 25 * ((1 - 1 / 2 ^ 25) ^ n * (1 - (1 - 1 / 2 ^ 25) ^ n)) / (δ * (n + 1.6 * 2 ^ p)) ^ 2 ≤
      0.15625 / (2 ^ p * δ ^ 2) := by
  have hm : (0 : ℝ) < 2 ^ p := by positivity
  have hn0 : (0 : ℝ) ≤ n := Nat.cast_nonneg _
  have h1 : (1 - 1 / 2 ^ 25 : ℝ) ^ n ≤ 1 := pow_le_one₀ (by norm_num) (by norm_num)
  have h0 : (0 : ℝ) ≤ (1 - 1 / 2 ^ 25 : ℝ) ^ n := pow_nonneg (by norm_num) _
  have h2 : 1 - (n : ℝ) * (1 / 2 ^ 25) ≤ (1 - 1 / 2 ^ 25 : ℝ) ^ n := by
    have := one_add_mul_le_pow (a := -(1 / 2 ^ 25 : ℝ)) (by norm_num) n
    rw [← sub_eq_add_neg] at this
    linarith
  have h3 : (2 : ℝ) ^ 25 * ((1 - 1 / 2 ^ 25) ^ n * (1 - (1 - 1 / 2 ^ 25) ^ n)) ≤ n := by
    generalize (1 - 1 / 2 ^ 25 : ℝ) ^ n = q at *
    norm_num at *
    nlinarith
  rw [div_le_div_iff₀ (by positivity) (by positivity)]
  refine (mul_le_mul_of_nonneg_right h3 (by positivity)).trans ?_
  have e : 0.15625 * (δ * ((n : ℝ) + 1.6 * 2 ^ p)) ^ 2 = 0.15625 * ((n : ℝ) + 1.6 * 2 ^ p) ^ 2 * δ ^ 2 := by ring
  rw [e, ← mul_assoc]
  refine mul_le_mul_of_nonneg_right ?_ (by positivity)
  norm_num
  nlinarith [sq_nonneg ((n : ℝ) - 8 / 5 * 2 ^ p)]

end
end HLL
