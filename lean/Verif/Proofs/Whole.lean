import Verif.Proofs.BiasTables
import Verif.Proofs.RawAccuracy

/-! # The bias-corrected estimate, and accuracy over the whole range of cardinalities -/

namespace HLL
open F64 Spec Exps

/-- If the same raw estimate belongs to `l m` and to `z m` values, then these are near. -/
theorem ratio_close {l z ρ τ raw A : ℝ} (hl0 : 0 ≤ l) (hl6 : l ≤ 6) (hz0 : 0 ≤ z) (hz6 : z ≤ 6)
    (hA : 0 < A) (hr : 0 < raw)
    (h1 : (1 - ρ) * A ≤ raw * E l) (h2 : raw * E l ≤ (1 + ρ) * A)
    (h3 : (1 - τ) * A ≤ raw * E z) (h4 : raw * E z ≤ (1 + τ) * A) :
    |z - l| * (1 - τ) ≤ (ρ + τ) * (l + 1.6) := by
  have hEl := E_pos l
  have hEz := E_pos z
  have hl16 : 0 < l + 1.6 := by norm_num; linarith
  have hz16 : 0 < z + 1.6 := by norm_num; linarith
  rcases le_total l z with h | h
  · have hE := E_ratio_le hl0 h hz6
    have h5 : (z + 1.6) * (1 - τ) * A ≤ (l + 1.6) * (1 + ρ) * A := by
      calc (z + 1.6) * (1 - τ) * A = (z + 1.6) * ((1 - τ) * A) := by ring
        _ ≤ (z + 1.6) * (raw * E z) := mul_le_mul_of_nonneg_left h3 hz16.le
        _ = raw * ((z + 1.6) * E z) := by ring
        _ ≤ raw * ((l + 1.6) * E l) := mul_le_mul_of_nonneg_left hE hr.le
        _ = (l + 1.6) * (raw * E l) := by ring
        _ ≤ (l + 1.6) * ((1 + ρ) * A) := mul_le_mul_of_nonneg_left h2 hl16.le
        _ = _ := by ring
    have h6 := le_of_mul_le_mul_right h5 hA
    rw [abs_of_nonneg (by linarith)]
    linarith
  · have hE := E_ratio_le hz0 h hl6
    have h5 : (l + 1.6) * (1 - ρ) * A ≤ (z + 1.6) * (1 + τ) * A := by
      calc (l + 1.6) * (1 - ρ) * A = (l + 1.6) * ((1 - ρ) * A) := by ring
        _ ≤ (l + 1.6) * (raw * E l) := mul_le_mul_of_nonneg_left h1 hl16.le
        _ = raw * ((l + 1.6) * E l) := by ring
        _ ≤ raw * ((z + 1.6) * E z) := mul_le_mul_of_nonneg_left hE hr.le
        _ = (z + 1.6) * (raw * E z) := by ring
        _ ≤ (z + 1.6) * ((1 + τ) * A) := mul_le_mul_of_nonneg_left h4 hz16.le
        _ = _ := by ring
    have h6 := le_of_mul_le_mul_right h5 hA
    rw [abs_of_nonpos (by linarith)]
    nlinarith

namespace Plus

/-- The relative error allowed for the bias correction. -/
noncomputable def tol' (p : Nat) : ℝ := 0.0046 + 1.8 / 2 ^ p

theorem high_arith {r raw Ex Ez x z A σ m : ℝ} (hm : 0 < m) (hx : 4.9 ≤ x) (hx5 : x ≤ 5)
    (hr : 4.95 * m ≤ r) (hraw : r ≤ raw) (hraw5 : raw ≤ 5 * m) (hz : z = x + (raw - r) / m)
    (hA : 0 < A) (hσ0 : 0 ≤ σ) (hσ : σ ≤ 0.01) (hEx : 0 < Ex)
    (e1 : (z + 1.6) * Ez ≤ (x + 1.6) * Ex) (e2 : (x - 0.45) * Ex ≤ (z - 0.45) * Ez)
    (h1 : (1 - σ) * A ≤ r * Ex) (h2 : r * Ex ≤ (1 + σ) * A) :
    (1 - σ - 0.0028) * A ≤ raw * Ez ∧ raw * Ez ≤ (1 + σ + 0.0028) * A := by
  obtain ⟨e, he⟩ : ∃ e, e = (raw - r) / m := ⟨_, rfl⟩
  have hraw' : raw = r + e * m := by rw [he]; field_simp; ring
  rw [← he] at hz
  have he0 : 0 ≤ e := by rw [he]; exact div_nonneg (by linarith) hm.le
  have he1 : e ≤ 0.05 := by
    rw [he, div_le_iff₀ hm]; norm_num at hr ⊢; linarith
  have hr0 : 0 < r := by norm_num at hr; nlinarith
  have hraw0 : 0 < raw := by linarith
  norm_num at hx hr he1 hσ e1 e2
  have hem : e * m ≤ 20 / 99 * e * r := by nlinarith
  have hem' : e / 5 * raw ≤ e * m := by nlinarith
  constructor
  · -- raw ≥ r (1 + e/5)
    have hx0 : 0 < z - 9 / 20 := by linarith
    have h3 : (x - 9 / 20) * (raw * Ex) ≤ (z - 9 / 20) * (raw * Ez) := by
      calc _ = raw * ((x - 9 / 20) * Ex) := by ring
        _ ≤ raw * ((z - 9 / 20) * Ez) := mul_le_mul_of_nonneg_left e2 hraw0.le
        _ = _ := by ring
    have h4 : (z - 9 / 20) * (1 - 14 / 5000) ≤ (x - 9 / 20) * (1 + e / 5) := by rw [hz]; nlinarith
    have h5 : (1 + e / 5) * ((1 - σ) * A) ≤ raw * Ex := by
      have h6 : (1 + e / 5) * r ≤ raw := by nlinarith
      calc (1 + e / 5) * ((1 - σ) * A) ≤ (1 + e / 5) * (r * Ex) := by gcongr
        _ = (1 + e / 5) * r * Ex := by ring
        _ ≤ raw * Ex := by gcongr
    have h7 : (z - 9 / 20) * ((1 - 14 / 5000) * ((1 - σ) * A)) ≤ (z - 9 / 20) * (raw * Ez) := by
      have hσA : 0 ≤ (1 - σ) * A := mul_nonneg (by linarith) hA.le
      calc _ = (z - 9 / 20) * (1 - 14 / 5000) * ((1 - σ) * A) := by ring
        _ ≤ (x - 9 / 20) * (1 + e / 5) * ((1 - σ) * A) := mul_le_mul_of_nonneg_right h4 hσA
        _ = (x - 9 / 20) * ((1 + e / 5) * ((1 - σ) * A)) := by ring
        _ ≤ (x - 9 / 20) * (raw * Ex) := mul_le_mul_of_nonneg_left h5 (by linarith)
        _ ≤ _ := h3
    refine le_trans ?_ (le_of_mul_le_mul_left h7 hx0)
    rw [← mul_assoc]
    refine mul_le_mul_of_nonneg_right ?_ hA.le
    norm_num; nlinarith
  · have hx0 : 0 < z + 8 / 5 := by linarith
    have h3 : (z + 8 / 5) * (raw * Ez) ≤ (x + 8 / 5) * (raw * Ex) := by
      calc _ = raw * ((z + 8 / 5) * Ez) := by ring
        _ ≤ raw * ((x + 8 / 5) * Ex) := mul_le_mul_of_nonneg_left e1 hraw0.le
        _ = _ := by ring
    have h4 : (x + 8 / 5) * (1 + 20 / 99 * e) ≤ (z + 8 / 5) * (1 + 27 / 10000) := by rw [hz]; nlinarith
    have h5 : raw * Ex ≤ (1 + 20 / 99 * e) * ((1 + σ) * A) := by
      have h6 : raw ≤ (1 + 20 / 99 * e) * r := by linarith
      calc raw * Ex ≤ (1 + 20 / 99 * e) * r * Ex := by gcongr
        _ = (1 + 20 / 99 * e) * (r * Ex) := by ring
        _ ≤ _ := by gcongr
    have h7 : (z + 8 / 5) * (raw * Ez) ≤ (z + 8 / 5) * ((1 + 27 / 10000) * ((1 + σ) * A)) := by
      have hσA : 0 ≤ (1 + σ) * A := mul_nonneg (by linarith) hA.le
      calc _ ≤ (x + 8 / 5) * (raw * Ex) := h3
        _ ≤ (x + 8 / 5) * ((1 + 20 / 99 * e) * ((1 + σ) * A)) :=
          mul_le_mul_of_nonneg_left h5 (by linarith)
        _ = (x + 8 / 5) * (1 + 20 / 99 * e) * ((1 + σ) * A) := by ring
        _ ≤ (z + 8 / 5) * (1 + 27 / 10000) * ((1 + σ) * A) := mul_le_mul_of_nonneg_right h4 hσA
        _ = _ := by ring
    refine (le_of_mul_le_mul_left h7 hx0).trans ?_
    rw [← mul_assoc]
    refine mul_le_mul_of_nonneg_right ?_ hA.le
    norm_num; nlinarith

/-- The bias-corrected estimate belongs to a number of values with about this raw estimate. -/
theorem corrected_near {p : Nat} (hp1 : 8 ≤ p) (hp2 : p ≤ 18) {raw β : ℚ} (h : BiasCase p raw β)
    (hlow : rawV p 0 < raw) (h5 : raw ≤ 5 * 2 ^ p) :
    ∃ z : ℝ, 0 ≤ z ∧ z ≤ 6 ∧ |((raw - β : ℚ) : ℝ) - z * 2 ^ p| ≤ 1 / 2 ^ 26 ∧
      (1 - tol' p) * (alphaQ p * 2 ^ p) ≤ raw * E z ∧ raw * E z ≤ (1 + tol' p) * (alphaQ p * 2 ^ p) := by
  have hp4 : 4 ≤ p := by omega
  have hm : (256 : ℝ) ≤ 2 ^ p := by
    calc (256 : ℝ) = 2 ^ 8 := by norm_num
      _ ≤ 2 ^ p := pow_le_pow_right₀ (by norm_num) hp1
  have hm0 : (0 : ℝ) < 2 ^ p := by positivity
  have hα : (0 : ℝ) < alphaQ p := by
    have : (0 : ℚ) < alphaQ p := by linarith [(alpha_facts hp4 hp2).2.1]
    exact_mod_cast this
  have hA : (0 : ℝ) < alphaQ p * 2 ^ p := by positivity
  have hw0 : 0 ≤ 1 / (2 : ℝ) ^ p := by positivity
  have hw : 1 / (2 : ℝ) ^ p ≤ 1 / 256 := by gcongr
  have et : tol p = 0.0018 + 1.7 * (1 / 2 ^ p) := by unfold tol; ring
  have et' : tol' p = 0.0046 + 1.8 * (1 / 2 ^ p) := by unfold tol'; ring
  rw [et']
  generalize 1 / (2 : ℝ) ^ p = w at *
  have hlen := table_lengths hp4 hp2
  obtain ⟨ends1, ends2, ends3⟩ := table_ends hp1 hp2
  cases h with
  | low h1 h2 => exact absurd hlow (not_lt.2 h1)
  | high h1 h2 =>
    obtain ⟨t1, t2, t3, t4, t5⟩ := table_near hp4 hp2 (k := (rawTable p).length - 1) (by omega)
    generalize (rawTable p).length - 1 = k at *
    have e : ((raw - β : ℚ) : ℝ) = (rawV p k - biasV p k : ℚ) + ((raw : ℝ) - rawV p k) := by
      rw [h2]; push_cast; ring
    have hr : (rawV p k : ℝ) ≤ raw := by exact_mod_cast h1
    have hr5 : (raw : ℝ) ≤ 5 * 2 ^ p := by exact_mod_cast h5
    have t3' : |((rawV p k - biasV p k : ℚ) : ℝ) - nodeT p k| ≤ 1 / 2 ^ 28 := by
      have := (Rat.cast_le (K := ℝ)).2 t3
      push_cast at this ⊢
      exact this
    have hx1 : (4.9 : ℝ) ≤ nodeT p k / 2 ^ p := by
      rw [le_div_iff₀ hm0]
      have : (49 : ℝ) * 2 ^ p ≤ 10 * nodeT p k := by exact_mod_cast ends3
      norm_num; linarith
    have hx2 : (nodeT p k : ℝ) / 2 ^ p ≤ 5 := by
      rw [div_le_iff₀ hm0]; exact_mod_cast t2
    have hz0 : 0 ≤ ((raw : ℝ) - rawV p k) / 2 ^ p := div_nonneg (by linarith) hm0.le
    have hz1 : ((raw : ℝ) - rawV p k) / 2 ^ p ≤ 0.05 := by
      rw [div_le_iff₀ hm0]; norm_num at ends2 ⊢; linarith
    refine ⟨nodeT p k / 2 ^ p + ((raw : ℝ) - rawV p k) / 2 ^ p, ?_, ?_, ?_, ?_⟩
    · norm_num at hx1; linarith
    · norm_num at hz1; linarith
    · rw [e, add_mul, div_mul_cancel₀ _ hm0.ne', div_mul_cancel₀ _ hm0.ne']
      have : ((rawV p k - biasV p k : ℚ) : ℝ) + ((raw : ℝ) - rawV p k) - (nodeT p k + ((raw : ℝ) - rawV p k)) =
        ((rawV p k - biasV p k : ℚ) : ℝ) - nodeT p k := by ring
      rw [this]
      refine t3'.trans (by norm_num)
    · rw [et] at t4 t5
      have hh := high_arith hm0 hx1 hx2 ends2 hr hr5 rfl hA (by norm_num; linarith)
        (by norm_num; linarith) (E_pos _)
        (E_ratio_le (by norm_num at hx1; linarith) (by linarith) (by norm_num at hz1; linarith))
        (E_ratio_ge (by norm_num at hx1 ⊢; linarith) (by linarith) (by norm_num at hz1; linarith)) t4 t5
      constructor
      · refine le_trans (mul_le_mul_of_nonneg_right ?_ hA.le) hh.1
        norm_num; linarith
      · refine hh.2.trans (mul_le_mul_of_nonneg_right ?_ hA.le)
        norm_num; linarith
  | mid k t hk ht0 ht1 h1 _ h2 =>
    obtain ⟨t1, t2, t3, t4, t5⟩ := table_near hp4 hp2 (k := k) (by omega)
    obtain ⟨s1, s2, s3, s4, s5⟩ := table_near hp4 hp2 hk
    obtain ⟨d1, -, d2⟩ := nodeT_step hp4 hp2 hk
    replace d2 := d2 (by omega)
    have ht0' : (0 : ℝ) ≤ t := by exact_mod_cast ht0
    have ht1' : (t : ℝ) ≤ 1 := by exact_mod_cast ht1
    have hxy : (nodeT p k : ℝ) / 2 ^ p ≤ nodeT p (k + 1) / 2 ^ p := by
      have : (nodeT p k : ℝ) ≤ nodeT p (k + 1) := by exact_mod_cast d1.le
      gcongr
    have hd : (nodeT p (k + 1) : ℝ) / 2 ^ p - nodeT p k / 2 ^ p ≤ 1 / 32 := by
      rw [← sub_div, div_le_iff₀ hm0]
      have : 32 * ((nodeT p (k + 1) - nodeT p k : ℕ) : ℝ) ≤ 2 ^ p := by exact_mod_cast d2
      rw [Nat.cast_sub d1.le] at this
      linarith
    have hx0 : (0 : ℝ) ≤ nodeT p k / 2 ^ p := by positivity
    have hy5 : (nodeT p (k + 1) : ℝ) / 2 ^ p ≤ 5 := by
      rw [div_le_iff₀ hm0]; exact_mod_cast s2
    rw [et] at t4 t5 s4 s5
    have hi := interpolate ht0' ht1' hxy (hd.trans (by norm_num)) hA (by norm_num; linarith)
      (by norm_num; linarith) t4 t5 s4 s5
    have hraw : (raw : ℝ) = (1 - t) * rawV p k + t * rawV p (k + 1) := by
      have : raw = (1 - t) * rawV p k + t * rawV p (k + 1) := by linarith
      rw [this]; push_cast; ring
    rw [← hraw] at hi
    have hdd : ((nodeT p (k + 1) : ℝ) / 2 ^ p - nodeT p k / 2 ^ p) ^ 2 ≤ (1 / 32) ^ 2 :=
      pow_le_pow_left₀ (by linarith) hd 2
    refine ⟨(1 - t) * (nodeT p k / 2 ^ p) + t * (nodeT p (k + 1) / 2 ^ p), ?_, ?_, ?_, ?_, ?_⟩
    · have : 0 ≤ 1 - (t : ℝ) := by linarith
      positivity
    · generalize (nodeT p k : ℝ) / 2 ^ p = x at *
      generalize (nodeT p (k + 1) : ℝ) / 2 ^ p = y at *
      clear hi t4 t5 s4 s5
      have := mul_nonneg (sub_nonneg.2 ht1') (sub_nonneg.2 hxy)
      linarith
    · have t3' := abs_le.1 t3
      have s3' := abs_le.1 s3
      have h2' := abs_le.1 h2
      have hq : |(raw - β) - ((1 - t) * nodeT p k + t * nodeT p (k + 1))| ≤ 1 / 2 ^ 26 := by
        have e : (raw - β) - ((1 - t) * nodeT p k + t * nodeT p (k + 1)) =
            (1 - t) * (rawV p k - biasV p k - nodeT p k) +
            t * (rawV p (k + 1) - biasV p (k + 1) - nodeT p (k + 1)) -
            (β - (biasV p k + t * (biasV p (k + 1) - biasV p k))) := by linarith
        have h1t : 0 ≤ 1 - t := by linarith
        rw [e, abs_le]
        have a1 := mul_le_mul_of_nonneg_left t3'.1 h1t
        have a2 := mul_le_mul_of_nonneg_left t3'.2 h1t
        have a3 := mul_le_mul_of_nonneg_left s3'.1 ht0
        have a4 := mul_le_mul_of_nonneg_left s3'.2 ht0
        norm_num at h2' a1 a2 a3 a4 ⊢
        constructor <;> linarith
      have := (Rat.cast_le (K := ℝ)).2 hq
      push_cast at this ⊢
      refine le_trans (le_of_eq ?_) this
      congr 1
      field_simp
    · refine le_trans (mul_le_mul_of_nonneg_right ?_ hA.le) hi.1
      norm_num at hdd ⊢; linarith
    · refine hi.2.trans (mul_le_mul_of_nonneg_right ?_ hA.le)
      norm_num at hdd ⊢; linarith

end Plus
end HLL
