import Verif.Proofs.Whole3

/-! # The estimate of the original HyperLogLog when the registers behave as expected -/

namespace HLL
open F64 Spec Exps

/-! ## The mean of the raw estimate above `2.14 m` -/

namespace Exps

/-- The checks for the cell from `j/64` to `(j+1)/64`. -/
def cell2 (j : Nat) : Bool :=
  decide (7214 * 6400 * 2 ^ 81 ≤ (100 * j + 704) * Elo ((j + 1) * 2 ^ 12) * 10000) &&
  decide (1000 * (j + 1) * Ehi (j * 2 ^ 12) * 10000 ≤ 7213 * 64 * 2 ^ 81 * 1005)

set_option maxRecDepth 100000 in
theorem cells2 : ((List.range 247).all fun j => cell2 (137 + j)) = true := by decide +kernel

/-- The values of `E` at `137/64` and at `3`. -/
theorem E_consts : 0.3225 ≤ E (137 / 64) ∧ E 3 ≤ 0.2381 := by
  have h1 := (E_bounds (a := 137 * 2 ^ 12) (by norm_num)).1
  have h2 := (E_bounds (a := 192 * 2 ^ 12) (by norm_num)).2
  have c1 : 3225 * 2 ^ 81 ≤ 10000 * Elo (137 * 2 ^ 12) := by decide +kernel
  have c2 : 10000 * Ehi (192 * 2 ^ 12) ≤ 2381 * 2 ^ 81 := by decide +kernel
  have c1' : 3225 * (2 : ℝ) ^ 81 ≤ 10000 * Elo (137 * 2 ^ 12) := by exact_mod_cast c1
  have c2' : 10000 * (Ehi (192 * 2 ^ 12) : ℝ) ≤ 2381 * 2 ^ 81 := by exact_mod_cast c2
  have e1 : ((137 * 2 ^ 12 : ℕ) : ℝ) / 2 ^ 18 = 137 / 64 := by norm_num
  have e2 : ((192 * 2 ^ 12 : ℕ) : ℝ) / 2 ^ 18 = 3 := by norm_num
  rw [e1] at h1
  rw [e2] at h2
  constructor
  · refine le_trans ?_ h1
    rw [le_div_iff₀ (by positivity)]
    norm_num at c1' ⊢
    linarith
  · refine h2.trans ?_
    rw [div_le_iff₀ (by positivity)]
    norm_num at c2' ⊢
    linarith

theorem mean_above {x : ℝ} (h0 : 137 / 64 ≤ x) (h6 : x ≤ 6) :
    0.7214 ≤ (x + 0.11) * E x ∧ x * E x ≤ 1.005 * 0.7213 := by
  obtain ⟨j, hj, hl, hr, -⟩ := grid (by linarith) h6
  obtain ⟨j, hj, hl, hr, hj2⟩ : ∃ j : ℕ, j < 384 ∧ (j : ℝ) / 64 ≤ x ∧ x ≤ ((j + 1 : ℕ) : ℝ) / 64 ∧ 137 ≤ j := by
    rcases Nat.lt_or_ge j 137 with h | h
    · have h1 : x = 137 / 64 := by
        refine le_antisymm (hr.trans ?_) h0
        have : ((j + 1 : ℕ) : ℝ) ≤ 137 := by exact_mod_cast h
        gcongr
      exact ⟨137, by norm_num, by rw [h1]; norm_num, by rw [h1]; norm_num, le_rfl⟩
    · exact ⟨j, hj, hl, hr, h⟩
  have hc := List.all_eq_true.1 cells2 (j - 137) (List.mem_range.2 (by omega))
  rw [show 137 + (j - 137) = j by omega] at hc
  simp only [cell2, Bool.and_eq_true, decide_eq_true_eq] at hc
  obtain ⟨c1, c2⟩ := hc
  have ea : ((j * 2 ^ 12 : ℕ) : ℝ) / 2 ^ 18 = j / 64 := by push_cast; ring
  have eb : (((j + 1) * 2 ^ 12 : ℕ) : ℝ) / 2 ^ 18 = (j + 1 : ℕ) / 64 := by push_cast; ring
  have ha : j * 2 ^ 12 ≤ 2 ^ 21 := (Nat.mul_le_mul_right _ hj.le).trans (by norm_num)
  have hb : (j + 1) * 2 ^ 12 ≤ 2 ^ 21 := (Nat.mul_le_mul_right _ hj).trans (by norm_num)
  have A1 := (E_bounds ha).2
  have A2 := (E_bounds hb).1
  rw [ea] at A1
  rw [eb] at A2
  have E1 := (E_anti hl).trans A1
  have E2 := A2.trans (E_anti hr)
  have hE := E_pos x
  generalize Ehi (j * 2 ^ 12) = u1 at *
  generalize Elo ((j + 1) * 2 ^ 12) = u2 at *
  have u2' : (0 : ℝ) ≤ u2 := Nat.cast_nonneg _
  have c1' : 7214 * 6400 * 2 ^ 81 ≤ (100 * (j : ℝ) + 704) * u2 * 10000 := by exact_mod_cast c1
  have c2' : 1000 * ((j : ℝ) + 1) * u1 * 10000 ≤ 7213 * 64 * 2 ^ 81 * 1005 := by exact_mod_cast c2
  clear A1 A2 ea eb ha hb
  constructor
  · have h1 : 0.7214 ≤ ((j : ℝ) / 64 + 0.11) * (u2 / 2 ^ 81) := by
      have h2 : ((j : ℝ) / 64 + 0.11) * (u2 / 2 ^ 81) =
          (100 * (j : ℝ) + 704) * u2 * 10000 / (6400 * 10000 * 2 ^ 81) := by
        norm_num; ring
      rw [h2, le_div_iff₀ (by positivity)]
      norm_num at c1' ⊢
      linarith
    refine h1.trans ?_
    gcongr
  · have h1 : ((j + 1 : ℕ) : ℝ) / 64 * (u1 / 2 ^ 81) ≤ 1.005 * 0.7213 := by
      rw [div_mul_div_comm, div_le_iff₀ (by positivity)]
      push_cast
      norm_num at c2' ⊢
      linarith
    refine le_trans ?_ h1
    gcongr

end Exps

section
variable {p n : Nat} {δ : ℝ} {ln : F64 → F64}

theorem exp_three_le : Real.exp 3 ≤ 20.0860 := by
  have h := Real.exp_one_lt_d9
  have e : Real.exp 3 = Real.exp 1 * Real.exp 1 * Real.exp 1 := by
    rw [← Real.exp_add, ← Real.exp_add]; norm_num
  rw [e]
  have h0 := Real.exp_pos 1
  generalize Real.exp 1 = x at *
  have h1 : x ≤ 2.718282 := by norm_num at h ⊢; linarith
  calc x * x * x ≤ 2.718282 * 2.718282 * 2.718282 := by gcongr
    _ ≤ _ := by norm_num

theorem exp_chord3 {x : ℝ} (h0 : 0 ≤ x) (h3 : x ≤ 3) : Real.exp x ≤ 1 + 6.362 * x := by
  have tangent : ∀ u z : ℝ, Real.exp z * (1 + (u - z)) ≤ Real.exp u := by
    intro u z
    have h3 : Real.exp u = Real.exp z * Real.exp (u - z) := by rw [← Real.exp_add]; congr 1; ring
    rw [h3]
    exact mul_le_mul_of_nonneg_left (by linarith [Real.add_one_le_exp (u - z)]) (Real.exp_pos z).le
  have t1 := mul_le_mul_of_nonneg_left (tangent 0 x) (by linarith : 0 ≤ 1 - x / 3)
  have t2 := mul_le_mul_of_nonneg_left (tangent 3 x) (by linarith : 0 ≤ x / 3)
  rw [Real.exp_zero] at t1
  have h3 := mul_le_mul_of_nonneg_left exp_three_le (by linarith : 0 ≤ x / 3)
  norm_num at h3 ⊢
  nlinarith

theorem zeros_prob_arith3 {l q m : ℝ} (hl0 : 0 ≤ l) (hl3 : l ≤ 3) (hm : 256 ≤ m) (hq0 : 0 < q)
    (hq : Real.exp (-l) * (1 - l / m) ≤ q) (hδ0 : 0 < δ) (hδ : δ ≤ 1 / 10) :
    m * (q * (1 - q)) / (δ * (l + 1.6) / (1 + δ * (l + 1.6)) * (m * q)) ^ 2 ≤ 2 / (m * δ ^ 2) := by
  have hm0 : 0 < m := by linarith
  have hs0 : 0 < l + 1.6 := by norm_num; linarith
  have h1 : (1 - q) / q ≤ 0.012 + 6.4385 * l := by
    have h2 : 1 ≤ (1.012 + 6.4385 * l) * q := by
      have h3 := exp_chord3 hl0 hl3
      have h4 : 1 - 3 / 256 ≤ 1 - l / m := by
        have : l / m ≤ 3 / 256 := by gcongr
        linarith
      have h5 : Real.exp (-l) * (1 - 3 / 256) ≤ q :=
        (mul_le_mul_of_nonneg_left h4 (Real.exp_pos _).le).trans hq
      have h6 : Real.exp l * Real.exp (-l) = 1 := by rw [← Real.exp_add]; simp
      have h7 : 1 ≤ (1 + 6.362 * l) * Real.exp (-l) :=
        h6.symm.le.trans (mul_le_mul_of_nonneg_right h3 (Real.exp_pos _).le)
      have h8 := Real.exp_pos (-l)
      generalize Real.exp (-l) = e at *
      have h9 : (1.012 + 6.4385 * l) * (e * (1 - 3 / 256)) ≤ (1.012 + 6.4385 * l) * q :=
        mul_le_mul_of_nonneg_left h5 (by norm_num; linarith)
      refine le_trans ?_ h9
      norm_num at *
      nlinarith [mul_nonneg hl0 h8.le]
    rw [div_le_iff₀ hq0]
    norm_num at *; linarith
  have h2 : (1 + δ * (l + 1.6)) ^ 2 ≤ (1 + 1 / 10 * (l + 1.6)) ^ 2 := by gcongr
  have e : m * (q * (1 - q)) / (δ * (l + 1.6) / (1 + δ * (l + 1.6)) * (m * q)) ^ 2 =
      (1 - q) / q * (1 + δ * (l + 1.6)) ^ 2 / (l + 1.6) ^ 2 / (m * δ ^ 2) := by
    field_simp
  rw [e]
  have h3 : (1 - q) / q * (1 + δ * (l + 1.6)) ^ 2 / (l + 1.6) ^ 2 ≤ 2 := by
    rw [div_le_iff₀ (by positivity)]
    have h0 : 0 ≤ 0.012 + 6.4385 * l := by positivity
    calc (1 - q) / q * (1 + δ * (l + 1.6)) ^ 2 ≤ (0.012 + 6.4385 * l) * (1 + 1 / 10 * (l + 1.6)) ^ 2 := by
          gcongr
      _ ≤ _ := by
        norm_num
        nlinarith [mul_nonneg hl0 (sub_nonneg.2 hl3), mul_nonneg hl0 (mul_nonneg hl0 (sub_nonneg.2 hl3)),
          sq_nonneg (l - 2)]
  gcongr

/-- The raw estimate above `2.5 m`. -/
theorem pf_high (hp1 : 8 ≤ p) (hp2 : p ≤ 18) (hn : n ≤ 6 * 2 ^ p) (hδ0 : 0 < δ) (hδ : δ ≤ 1 / 10)
    {raw : ℝ} (h1 : (1 - (δ + 1.7 / 2 ^ p)) * (alphaQ p * 2 ^ p) ≤ raw * E (n / 2 ^ p))
    (h2 : raw * E (n / 2 ^ p) ≤ (1 + (δ + 1.7 / 2 ^ p)) * (alphaQ p * 2 ^ p))
    (h5 : 5 / 2 * 2 ^ p < raw) :
    2 * 2 ^ p < n ∧ raw ≤ 2 ^ 32 / 30 ∧
      |raw - n| ≤ wholeErr p δ * (n + 1.6 * 2 ^ p) + 0.11 * 2 ^ p := by
  obtain ⟨a1, a2⟩ := alpha_near (p := p) (by omega) hp2
  have hm := m_ge hp1
  have hm2 := m_le hp2
  have hn' : (n : ℝ) ≤ 6 * 2 ^ p := by exact_mod_cast hn
  have hw : 1 / (2 : ℝ) ^ p ≤ 1 / 256 := by gcongr
  have hw0 : 0 < 1 / (2 : ℝ) ^ p := by positivity
  have e1 : 1.7 / (2 : ℝ) ^ p = 1.7 * (1 / 2 ^ p) := by ring
  have e2 : 1.1 / (2 : ℝ) ^ p = 1.1 * (1 / 2 ^ p) := by ring
  have e3 : 1.06 / (2 : ℝ) ^ p = 1.06 * (1 / 2 ^ p) := by ring
  have e4 : 4 / (2 : ℝ) ^ p = 4 * (1 / 2 ^ p) := by ring
  have hl0 : (0 : ℝ) ≤ n / 2 ^ p := by positivity
  have hl6 : (n : ℝ) / 2 ^ p ≤ 6 := by rw [div_le_iff₀ (by positivity)]; exact hn'
  have hEp := E_pos ((n : ℝ) / 2 ^ p)
  have hlm : (n : ℝ) = n / 2 ^ p * 2 ^ p := by field_simp
  have hl2 : 137 / 64 ≤ (n : ℝ) / 2 ^ p := by
    by_contra hc
    rw [not_le] at hc
    have t2 := E_consts.1
    have t3 := E_anti hc.le
    have t4 : raw * E (n / 2 ^ p) ≤ 1.107 * (0.7213 * 2 ^ p) := by
      refine h2.trans ?_
      rw [e1]
      rw [e3] at a2
      have : (alphaQ p : ℝ) * 2 ^ p ≤ 0.7213 * 2 ^ p := by
        refine mul_le_mul_of_nonneg_right ?_ (by positivity)
        generalize 1 / (2 : ℝ) ^ p = w at *
        norm_num at a2 ⊢; linarith
      refine mul_le_mul ?_ this ?_ (by norm_num)
      · norm_num at hw hδ ⊢; linarith
      · have : (0 : ℝ) ≤ alphaQ p := le_trans (mul_nonneg (by norm_num) (by
          rw [e2]; norm_num at hw ⊢; linarith)) a1
        positivity
    have t5 : 5 / 2 * 2 ^ p * E (n / 2 ^ p) ≤ raw * E (n / 2 ^ p) := mul_le_mul_of_nonneg_right h5.le hEp.le
    have t6 : 5 / 2 * 2 ^ p * E (137 / 64) ≤ 5 / 2 * 2 ^ p * E (n / 2 ^ p) := by gcongr
    have t7 : 5 / 2 * E (137 / 64) ≤ 1.107 * 0.7213 := by
      have : 2 ^ p * (5 / 2 * E (137 / 64)) ≤ 2 ^ p * (1.107 * 0.7213) := by linarith
      exact le_of_mul_le_mul_left this (by positivity)
    norm_num at t2 t7
    linarith
  have hn2 : 2 * 2 ^ p < n := by
    have : 2 * (2 : ℝ) ^ p < n := by
      rw [le_div_iff₀ (by positivity)] at hl2
      linarith
    exact_mod_cast this
  refine ⟨hn2, ?_⟩
  obtain ⟨hv, hv'⟩ := mean_above hl2 hl6
  unfold wholeErr
  rw [e4]
  rw [e1] at h1 h2
  rw [e2] at a1
  rw [e3] at a2
  have hraw0 : 0 < raw := lt_trans (by positivity) h5
  clear hn hn2
  generalize (alphaQ p : ℝ) = α at *
  generalize E ((n : ℝ) / 2 ^ p) = e at *
  generalize 1 / (2 : ℝ) ^ p = w at *
  generalize (2 : ℝ) ^ p = m at *
  generalize (n : ℝ) / m = l at *
  have hm0 : 0 < m := by linarith
  rw [hlm]
  have eρ : 0 ≤ δ + 1.7 * w := by positivity
  have eρ' : δ + 1.7 * w ≤ 0.107 := by norm_num at hw hδ ⊢; linarith
  have u1 : raw ≤ (1 + (δ + 1.7 * w)) * (l * m + 0.11 * m) := by
    have t1 : raw * e ≤ (1 + (δ + 1.7 * w)) * ((l + 0.11) * e * m) := by
      refine h2.trans (mul_le_mul_of_nonneg_left ?_ (by linarith))
      refine mul_le_mul_of_nonneg_right ?_ hm0.le
      norm_num at a2 hv ⊢; linarith
    have : raw * e ≤ ((1 + (δ + 1.7 * w)) * (l * m + 0.11 * m)) * e := by linarith
    exact le_of_mul_le_mul_right this hEp
  have u2 : (1 - (δ + 1.7 * w)) * (1 - 1.1 * w) * (l * m) ≤ 1.005 * raw := by
    have t1 : (1 - (δ + 1.7 * w)) * (0.7213 * (1 - 1.1 * w) * m) ≤ raw * e := by
      refine le_trans (mul_le_mul_of_nonneg_left ?_ (by linarith)) h1
      refine mul_le_mul_of_nonneg_right ?_ hm0.le
      norm_num at a1 ⊢; linarith
    have t2 : (1 - (δ + 1.7 * w)) * (0.7213 * (1 - 1.1 * w) * m) * l ≤ raw * (1.005 * 0.7213) := by
      calc _ ≤ raw * e * l := mul_le_mul_of_nonneg_right t1 hl0
        _ = raw * (l * e) := by ring
        _ ≤ _ := mul_le_mul_of_nonneg_left hv' hraw0.le
    norm_num at t2 ⊢
    linarith
  have hx : 0 ≤ l * m := by positivity
  have hx6 : l * m ≤ 6 * m := by rw [← hlm]; exact hn'
  have hk : (0 : ℝ) ≤ 1.05 * δ + 0.005 + 4 * w := by positivity
  constructor
  · refine u1.trans ?_
    calc (1 + (δ + 1.7 * w)) * (l * m + 0.11 * m) ≤ 1.107 * (6 * m + 0.11 * m) := by
          refine mul_le_mul ?_ (by linarith) (by positivity) (by norm_num)
          norm_num at eρ' ⊢; linarith
      _ ≤ _ := by norm_num at hm2 ⊢; linarith
  rw [abs_le]
  constructor
  · have hs : 1.26 * (l * m) ≤ l * m + 1.6 * m := by norm_num at hx6 ⊢; linarith
    have hs2 := mul_le_mul_of_nonneg_left hs hk
    have k2 : (1 - (1.05 * δ + 0.005 + 4 * w) * 1.26) * 1.005 ≤ (1 - (δ + 1.7 * w)) * (1 - 1.1 * w) := by
      norm_num at *; nlinarith [mul_nonneg hδ0.le hw0.le]
    have := mul_le_mul_of_nonneg_right k2 hx
    norm_num at this hs2 u2 ⊢
    linarith
  · have k2 : δ + 1.7 * w ≤ 1.05 * δ + 0.005 + 4 * w := by norm_num; linarith
    have k3 : (δ + 1.7 * w) * (l * m + 0.11 * m) ≤
        (1.05 * δ + 0.005 + 4 * w) * (l * m + 1.6 * m) := by
      refine mul_le_mul k2 ?_ (by positivity) hk
      norm_num; linarith
    have e9 : (1 + (δ + 1.7 * w)) * (l * m + 0.11 * m) = (l * m + 0.11 * m) +
      (δ + 1.7 * w) * (l * m + 0.11 * m) := by ring
    linarith

/-- Below `2.5 m` there are fewer than `3 m` values. -/
theorem pf_low (hp1 : 8 ≤ p) (hp2 : p ≤ 18) (hδ : δ ≤ 1 / 10)
    {raw : ℝ} (h1 : (1 - (δ + 1.7 / 2 ^ p)) * (alphaQ p * 2 ^ p) ≤ raw * E (n / 2 ^ p))
    (h5 : raw ≤ 5 / 2 * 2 ^ p) : n ≤ 3 * 2 ^ p := by
  obtain ⟨a1, -⟩ := alpha_near (p := p) (by omega) hp2
  have hm := m_ge hp1
  have hw : 1 / (2 : ℝ) ^ p ≤ 1 / 256 := by gcongr
  have e1 : 1.7 / (2 : ℝ) ^ p = 1.7 * (1 / 2 ^ p) := by ring
  have e2 : 1.1 / (2 : ℝ) ^ p = 1.1 * (1 / 2 ^ p) := by ring
  have hEp := E_pos ((n : ℝ) / 2 ^ p)
  by_contra hc
  rw [not_le] at hc
  have hc' : 3 ≤ (n : ℝ) / 2 ^ p := by
    rw [le_div_iff₀ (by positivity)]; exact_mod_cast hc.le
  have t3 := E_anti hc'
  have t2 := E_consts.2
  have t4 : 0.893 * (0.718 * 2 ^ p) ≤ raw * E (n / 2 ^ p) := by
    refine le_trans (mul_le_mul ?_ (mul_le_mul_of_nonneg_right ?_ (by positivity)) (by positivity) ?_) h1
    · rw [e1]; norm_num at hw hδ ⊢; linarith
    · rw [e2] at a1; norm_num at a1 hw ⊢; linarith
    · rw [e1]; norm_num at hw hδ ⊢; linarith
  have t5 : raw * E (n / 2 ^ p) ≤ 5 / 2 * 2 ^ p * 0.2381 :=
    mul_le_mul h5 (by linarith) hEp.le (by positivity)
  norm_num at t4 t5
  linarith

/-- The original HyperLogLog when the sum over the registers and the number of empty registers are
near their averages, for up to `6 m` values. -/
theorem pf_whole_low (hln : LnSpec ln) (hp1 : 8 ≤ p) (hp2 : p ≤ 16) (hδ0 : 0 < δ)
    (hδ : δ ≤ 1 / 10) (hn : n ≤ 6 * 2 ^ p) {S : Finset Nat}
    (hraw : |(rawQ p (hsum 0 (regs 32 p S)) : ℝ) - centre 32 p n| ≤
      (δ + (1 + δ) / 2 ^ 32) * centre 32 p n)
    (hz : n ≤ 3 * 2 ^ p → |(zeros 32 p S : ℝ) - 2 ^ p * (1 - 1 / 2 ^ p) ^ n| < zdev p n δ) :
    ∃ y : ℚ, pfCount ln p S = fin y ∧
      |(y : ℝ) - n| ≤ wholeErr p δ * (n + 1.6 * 2 ^ p) + (if n ≤ 2 * 2 ^ p then 0 else 0.11 * 2 ^ p) := by
  obtain ⟨r1, r2⟩ := raw_range (b := 32) (by omega) hp1 (by omega) hn hδ0 hδ hraw
  rcases lt_or_ge (5 / 2 * 2 ^ p) (rawQ p (hsum 0 (regs 32 p S))) with h5 | h5
  · have h6 := (Rat.cast_lt (K := ℝ)).2 h5
    push_cast at h6
    obtain ⟨k1, k2, k3⟩ := pf_high hp1 (by omega) hn hδ0 hδ r1 r2 h6
    refine ⟨_, pfCount_raw (by omega) hp2 h5 ?_, ?_⟩
    · have k4 : (rawQ p (hsum 0 (regs 32 p S)) : ℝ) ≤ ((2 ^ 32 / 30 : ℚ) : ℝ) := by
        push_cast; exact k2
      exact_mod_cast k4
    · rw [if_neg (by omega)]
      exact k3
  · have h6 := (Rat.cast_le (K := ℝ)).2 h5
    push_cast at h6
    have hn3 := pf_low hp1 (by omega) hδ r1 h6
    obtain ⟨h0, y, h1, h2⟩ := linear_whole hln hp1 (by omega) hδ0 hδ (hz hn3) (zeros_le _ _ _)
    rcases pfRegime_cases ln (by omega : 4 ≤ p) hp2 S with ⟨_, _, _, a4⟩ | ⟨a3, _⟩
    · rw [count_zero_regs] at a4
      refine ⟨y, a4.trans h1, (h2.trans (mul_le_mul_of_nonneg_right (wholeErr_ge hδ0)
        (by positivity))).trans ?_⟩
      have : (0 : ℝ) ≤ if n ≤ 2 * 2 ^ p then 0 else 0.11 * 2 ^ p := by split <;> positivity
      linarith
    · rw [count_zero_regs] at a3
      exact absurd ⟨h5, h0.ne'⟩ a3

end
end HLL
