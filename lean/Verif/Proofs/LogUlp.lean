import Verif.Proofs.LogSteps
import Verif.Proofs.Ulp

/-!
# The rounding errors in `src/log.rs`, step by step
-/

namespace HLL.Log
open F64 LogPoly

theorem rnd_rough (x : ℚ) : |rnd x| ≤ 2 * |x| + 1 := by
  have h := rnd_err x
  rw [Rat.cast_id] at h
  have h1 := abs_add_le x (rnd x - x)
  rw [add_sub_cancel] at h1
  have h2 : (2 : ℚ) ^ (-1074 : ℤ) ≤ 2 ^ (0 : ℤ) := zpow_le_zpow_right₀ (by norm_num) (by norm_num)
  have h3 : |x| / 2 ^ 53 ≤ |x| := div_le_self (abs_nonneg x) (by norm_num)
  rw [zpow_zero] at h2
  linarith

/-- All rounded values of the polynomial part. -/
theorem kernel_values {x : ℚ} {k : ℤ} (hk : |k| ≤ 1100) (h1 : splitPoint / 2 ≤ x) (h2 : x < splitPoint)
    (h3 : ∃ n : ℤ, x = n * 2 ^ (-53 : ℤ)) {f s : ℚ} (hf : f = x - 1) (hs : s = f / (2 + f)) :
    ∃ sa Ra Ha Q V La V' t A y : ℚ, Is (kernel (fin x) k) y ∧ |sa - s| ≤ 204 / 100 / 2 ^ 53 * |s| ∧
      |Ra - poly (s ^ 2)| ≤ 842 / 100 / 2 ^ 53 * poly (s ^ 2) ∧ Ha = rnd (f ^ 2 / 2) ∧
      Q = rnd (Ha + Ra) ∧ V = rnd (sa * Q) ∧ La = rnd ((k : ℚ) * (7382048951581814 / 2 ^ 85)) ∧
      V' = rnd (V + La) ∧ t = rnd (V' - Ha) ∧ A = rnd (t + f) ∧
      y = rnd (A + (k : ℚ) * (2977044471 / 2 ^ 32)) := by
  obtain ⟨S, W, sa, Ra, hker, i1, i2, hsa, hRa⟩ := kernel_steps k h1 h2 h3 hf hs
  obtain ⟨_, f2, f3, f4, _⟩ := f_facts h1 h2 h3
  rw [← hf] at f2 f3 f4
  obtain ⟨s1, -⟩ := s_facts f3 f4
  rw [← hs] at s1
  obtain ⟨-, -, -, -, -, -, -, c8, c9⟩ := consts
  have d5 : ofDec 5 1 = fin (1 / 2) := by decide +kernel
  obtain ⟨k1, k2⟩ := ofInt_eq (k := k) (by omega)
  have hκ1 : |(k : ℚ)| ≤ 1100 := by exact_mod_cast hk
  have hfa : |f| ≤ 1 / 2 := abs_le.2 ⟨by linarith, by linarith⟩
  have hz : s ^ 2 ≤ 2945 / 100000 := by
    rw [← sq_abs]
    calc |s| ^ 2 ≤ (1716 / 10000) ^ 2 := pow_le_pow_left₀ (abs_nonneg s) s1.le 2
      _ ≤ _ := by norm_num
  obtain ⟨p0, p1⟩ := poly_bound (sq_nonneg s) hz
  have hf2 : |f ^ 2 / 2| ≤ 1 / 8 := by
    rw [abs_of_nonneg (by positivity), ← sq_abs]
    nlinarith [abs_nonneg f]
  have half : rnd (1 / 2 * f) = 1 / 2 * f := by
    obtain ⟨n, hn⟩ := h3
    have hx : 1 / 2 * f = ((n - 2 ^ 53 : ℤ) : ℚ) * 2 ^ (-54 : ℤ) := by
      rw [hf, hn]; push_cast; norm_num; ring
    rw [hx]
    refine rnd_of_int_mul ?_ (by norm_num)
    have h4 : |((n - 2 ^ 53 : ℤ) : ℚ)| ≤ 2 ^ 53 := by
      have : ((n - 2 ^ 53 : ℤ) : ℚ) = f * 2 ^ 53 := by
        rw [hf, hn]; push_cast; norm_num; ring
      rw [this, abs_mul, abs_of_pos (by norm_num : (0 : ℚ) < 2 ^ 53)]
      exact mul_le_of_le_one_left (by norm_num) (by linarith)
    exact_mod_cast h4
  have jh : Is (mul (ofDec 5 1) (fin f)) (1 / 2 * f) := by
    have := (Is.fin (1 / 2)).mul (Is.fin f) (le_big (by
      rw [abs_mul, abs_of_pos (by norm_num : (0 : ℚ) < 1 / 2)]; linarith))
    rwa [half, ← d5] at this
  have jH : Is (mul (mul (ofDec 5 1) (fin f)) (fin f)) (rnd (f ^ 2 / 2)) := by
    have e : f ^ 2 / 2 = 1 / 2 * f * f := by ring
    rw [e]
    exact jh.mul (Is.fin _) (le_big (by rw [← e]; linarith))
  have bsa : |sa| ≤ 1 := by
    have := abs_add_le s (sa - s); rw [add_sub_cancel] at this
    norm_num at hsa; linarith
  have bRa : |Ra| ≤ 1 := by
    have := abs_add_le (poly (s ^ 2)) (Ra - poly (s ^ 2))
    rw [add_sub_cancel, abs_of_nonneg p0] at this
    norm_num at hRa; linarith
  have bHa := rnd_rough (f ^ 2 / 2)
  have bQ0 := abs_add_le (rnd (f ^ 2 / 2)) Ra
  have bQ := rnd_rough (rnd (f ^ 2 / 2) + Ra)
  have jQ := jH.add i2 (le_big (by linarith))
  have bV0 : |sa * rnd (rnd (f ^ 2 / 2) + Ra)| ≤ 10 := by
    rw [abs_mul]
    calc _ ≤ 1 * |rnd (rnd (f ^ 2 / 2) + Ra)| := mul_le_mul_of_nonneg_right bsa (abs_nonneg _)
      _ ≤ _ := by linarith
  have bV := rnd_rough (sa * rnd (rnd (f ^ 2 / 2) + Ra))
  have jV := i1.mul jQ (le_big (by linarith))
  have bL0 : |(k : ℚ) * (7382048951581814 / 2 ^ 85)| ≤ 1 := by
    rw [abs_mul]
    calc |(k : ℚ)| * |7382048951581814 / 2 ^ 85| ≤ 1100 * (1 / 1100) :=
          mul_le_mul hκ1 (by rw [abs_of_pos] <;> norm_num) (abs_nonneg _) (by norm_num)
      _ ≤ _ := by norm_num
  have bK : |(k : ℚ) * (2977044471 / 2 ^ 32)| ≤ 1100 := by
    rw [abs_mul]
    calc |(k : ℚ)| * |2977044471 / 2 ^ 32| ≤ 1100 * 1 :=
          mul_le_mul hκ1 (by rw [abs_of_pos] <;> norm_num) (abs_nonneg _) (by norm_num)
      _ ≤ _ := by norm_num
  have jL : Is (mul (ofInt k) LN2_LO) (rnd ((k : ℚ) * (7382048951581814 / 2 ^ 85))) := by
    rw [k1, c9]
    exact (Is.fin _).mul (Is.fin _) (le_big (by linarith))
  have hhi : rnd ((k : ℚ) * (2977044471 / 2 ^ 32)) = k * (2977044471 / 2 ^ 32) := by
    have e1 : (k : ℚ) * (2977044471 / 2 ^ 32) = ((k * 2977044471 : ℤ) : ℚ) * 2 ^ (-32 : ℤ) := by
      push_cast; norm_num; ring
    rw [e1]
    refine rnd_of_int_mul ?_ (by norm_num)
    rw [abs_mul]
    calc |k| * |2977044471| ≤ 1100 * |2977044471| := mul_le_mul_of_nonneg_right hk (abs_nonneg _)
      _ ≤ _ := by norm_num
  have jhi : Is (mul (ofInt k) LN2_HI) ((k : ℚ) * (2977044471 / 2 ^ 32)) := by
    rw [k1, c8, ← hhi]
    exact (Is.fin _).mul (Is.fin _) (le_big (by linarith))
  refine ⟨sa, Ra, _, _, _, _, _, _, _, _, ?_, hsa, hRa, rfl, rfl, rfl, rfl, rfl, rfl, rfl, rfl⟩
  rw [hker]
  have bL := rnd_rough ((k : ℚ) * (7382048951581814 / 2 ^ 85))
  generalize rnd ((k : ℚ) * (7382048951581814 / 2 ^ 85)) = La at *
  generalize rnd (sa * rnd (rnd (f ^ 2 / 2) + Ra)) = V at *
  generalize rnd (f ^ 2 / 2) = Ha at *
  have b1 := abs_add_le V La
  have j1 := jV.add jL (le_big (by linarith))
  have c1 := rnd_rough (V + La)
  have b2 := abs_sub (rnd (V + La)) Ha
  have j2 := j1.sub jH (le_big (by linarith))
  have c2 := rnd_rough (rnd (V + La) - Ha)
  have b3 := abs_add_le (rnd (rnd (V + La) - Ha)) f
  have j3 := j2.add (Is.fin f) (le_big (by linarith))
  have c3 := rnd_rough (rnd (rnd (V + La) - Ha) + f)
  have b4 := abs_add_le (rnd (rnd (rnd (V + La) - Ha) + f)) ((k : ℚ) * (2977044471 / 2 ^ 32))
  exact j3.add jhi (le_big (by linarith))

/-- The error of the sum before the last two roundings, from the errors of the single steps. -/
theorem chain {f s h R sa Ra Ha Q V La V' t L0 eH eR es eQ eV eL e1 et : ℚ}
    (hH : |Ha - h| ≤ eH) (hR : |Ra - R| ≤ eR) (hs : |sa - s| ≤ es) (hQ : |Q - (Ha + Ra)| ≤ eQ)
    (hV : |V - sa * Q| ≤ eV) (hL : |La - L0| ≤ eL) (h1 : |V' - (V + La)| ≤ e1)
    (ht : |t - (V' - Ha)| ≤ et) :
    |t + f - (f - h + s * (h + R) + L0)| ≤
      et + e1 + eL + eV + |sa| * (eQ + eR) + es * |Ha + R| + |1 - s| * eH := by
  have e : t + f - (f - h + s * (h + R) + L0) = (t - (V' - Ha)) + (V' - (V + La)) + (La - L0) +
      (V - sa * Q) + sa * ((Q - (Ha + Ra)) + (Ra - R)) + (sa - s) * (Ha + R) + -((1 - s) * (Ha - h)) := by
    ring
  rw [e]
  have m1 : |sa * ((Q - (Ha + Ra)) + (Ra - R))| ≤ |sa| * (eQ + eR) := by
    rw [abs_mul]
    exact mul_le_mul_of_nonneg_left ((abs_add_le _ _).trans (add_le_add hQ hR)) (abs_nonneg _)
  have m2 : |(sa - s) * (Ha + R)| ≤ es * |Ha + R| := by
    rw [abs_mul]; exact mul_le_mul_of_nonneg_right hs (abs_nonneg _)
  have m3 : |-((1 - s) * (Ha - h))| ≤ |1 - s| * eH := by
    rw [abs_neg, abs_mul]; exact mul_le_mul_of_nonneg_left hH (abs_nonneg _)
  refine (abs_add_le _ _).trans (add_le_add ?_ m3)
  refine (abs_add_le _ _).trans (add_le_add ?_ m2)
  refine (abs_add_le _ _).trans (add_le_add ?_ m1)
  refine (abs_add_le _ _).trans (add_le_add ?_ hV)
  refine (abs_add_le _ _).trans (add_le_add ?_ hL)
  exact (abs_add_le _ _).trans (add_le_add ht h1)

/-- The error of the low part of `k ln 2`. -/
theorem low_err {k : ℤ} (hk : |k| ≤ 1100) :
    |rnd ((k : ℚ) * (7382048951581814 / 2 ^ 85)) - k * (7382048951581814 / 2 ^ 85)| ≤ 1 / 10 ^ 20 ∧
      |(k : ℚ) * (7382048951581814 / 2 ^ 85)| ≤ 3 / 10 ^ 7 := by
  have hκ1 : |(k : ℚ)| ≤ 1100 := by exact_mod_cast hk
  have h1 : |(k : ℚ) * (7382048951581814 / 2 ^ 85)| ≤ 3 / 10 ^ 7 := by
    rw [abs_mul]
    calc |(k : ℚ)| * |7382048951581814 / 2 ^ 85| ≤ 1100 * (2 / 10 ^ 10) :=
          mul_le_mul hκ1 (by rw [abs_of_pos] <;> norm_num) (abs_nonneg _) (by norm_num)
      _ ≤ _ := by norm_num
  refine ⟨(rnd_err_abs (E := -20) (by norm_num) (h1.trans_lt (by norm_num))).trans (by norm_num), h1⟩

/-- Bound of the error with absolute bounds of the roundings. -/
theorem err_abs {f s h R sa Ra Ha Q V La V' t S Hb Rb : ℚ} {k : ℤ} (hk : |k| ≤ 1100)
    (hsa : |sa - s| ≤ 204 / 100 / 2 ^ 53 * |s|) (hRa : |Ra - R| ≤ 842 / 100 / 2 ^ 53 * R)
    (hHa : Ha = rnd h) (hQ : Q = rnd (Ha + Ra)) (hV : V = rnd (sa * Q))
    (hLa : La = rnd ((k : ℚ) * (7382048951581814 / 2 ^ 85))) (hV' : V' = rnd (V + La))
    (ht : t = rnd (V' - Ha)) (hS : |s| ≤ S) (hS1 : S ≤ 1716 / 10000) (h0 : 0 ≤ h) (h1 : h ≤ Hb)
    (R0 : 0 ≤ R) (R1 : R ≤ Rb) (e : ℤ) (he : -100 ≤ e) (he0 : e ≤ -3)
    (b1 : Hb + Rb + S * (Hb + Rb) + 1 / 10 ^ 6 ≤ 2 ^ e) (b2 : S * (Hb + Rb) + 1 / 10 ^ 6 ≤ 2 ^ (e - 2)) :
    |t + f - (f - h + s * (h + R) + k * (7382048951581814 / 2 ^ 85))| ≤
      2 ^ (e - 54) * (3 / 2 + |1 - s| + S) + (842 / 100 * S * Rb + 204 / 100 * S * (Hb + Rb) + 1 / 10 ^ 3) / 2 ^ 53 := by
  obtain ⟨l1, l2⟩ := low_err hk
  rw [← hLa] at l1
  generalize (k : ℚ) * (7382048951581814 / 2 ^ 85) = L0 at *
  have hε0 : (0 : ℚ) < 2 ^ (e - 54) := by positivity
  have hε1 : (2 : ℚ) ^ (e - 54) ≤ 1 / 10 ^ 15 :=
    (zpow_le_zpow_right₀ (by norm_num) (show e - 54 ≤ -57 by omega)).trans (by norm_num)
  have hε2 : (2 : ℚ) ^ (e - 2 - 54) = 2 ^ (e - 54) / 4 := by
    rw [show e - 2 - 54 = e - 54 - 2 by ring, zpow_sub₀ (by norm_num)]; norm_num
  have hS0 : 0 ≤ S := (abs_nonneg s).trans hS
  have hSH : 0 ≤ S * (Hb + Rb) := mul_nonneg hS0 (by linarith)
  -- the half square
  have r1 := rnd_err_abs (x := h) (E := e) (by omega) (by rw [abs_of_nonneg h0]; norm_num at b1; linarith)
  rw [← hHa] at r1
  have r1' := abs_le.1 r1
  -- R
  have q1 : |Ra - R| ≤ 842 / 100 / 2 ^ 53 * Rb := hRa.trans (mul_le_mul_of_nonneg_left R1 (by norm_num))
  have hRb : Rb ≤ 1 := by
    have : (2 : ℚ) ^ e ≤ 1 := (zpow_le_zpow_right₀ (by norm_num) he0).trans (by norm_num)
    norm_num at b1; linarith
  have q1' : |Ra - R| ≤ 1 / 10 ^ 14 := q1.trans (by norm_num; linarith)
  have q1'' := abs_le.1 q1'
  -- the sum
  have aQ : |Ha + Ra| < 2 ^ e := by
    rw [abs_lt]
    have : (0 : ℚ) < 2 ^ e := by positivity
    norm_num at b1 hε1 q1''
    constructor <;> linarith
  have r2 := rnd_err_abs (x := Ha + Ra) (by omega) aQ
  rw [← hQ] at r2
  have r2' := abs_le.1 r2
  have bQ : |Q| ≤ Hb + Rb + 1 / 10 ^ 13 := by
    rw [abs_le]
    norm_num at hε1 q1'' ⊢
    constructor <;> linarith
  -- the product
  have bsa : |sa| ≤ S * (1 + 1 / 10 ^ 15) := by
    have := abs_add_le s (sa - s); rw [add_sub_cancel] at this
    norm_num at hsa ⊢; linarith
  have aV : |sa * Q| ≤ S * (Hb + Rb) + 1 / 10 ^ 12 := by
    rw [abs_mul]
    have hb : Hb + Rb ≤ 1 := by
      have : (2 : ℚ) ^ e ≤ 1 := (zpow_le_zpow_right₀ (by norm_num) he0).trans (by norm_num)
      norm_num at b1; linarith
    calc |sa| * |Q| ≤ S * (1 + 1 / 10 ^ 15) * (Hb + Rb + 1 / 10 ^ 13) :=
          mul_le_mul bsa bQ (abs_nonneg _) (by positivity)
      _ = S * (Hb + Rb) + S * (Hb + Rb) / 10 ^ 15 + S * (1 + 1 / 10 ^ 15) / 10 ^ 13 := by ring
      _ ≤ _ := by
        have : S * (Hb + Rb) ≤ S * 1 := mul_le_mul_of_nonneg_left hb hS0
        norm_num
        linarith
  have r3 := rnd_err_abs (x := sa * Q) (E := e - 2) (by omega) (aV.trans_lt (by norm_num at b2 ⊢; linarith))
  rw [← hV, hε2] at r3
  have aV' : |V + La| ≤ S * (Hb + Rb) + 4 / 10 ^ 7 := by
    have t1 := abs_add_le V La
    have t2 := abs_add_le (sa * Q) (V - sa * Q)
    have t3 := abs_add_le L0 (La - L0)
    rw [add_sub_cancel] at t2 t3
    generalize |sa * Q| = w at *
    norm_num at aV l1 l2 hε1 ⊢
    linarith
  have r4 := rnd_err_abs (x := V + La) (E := e - 2) (by omega) (aV'.trans_lt (by norm_num at b2 ⊢; linarith))
  rw [← hV', hε2] at r4
  have aT : |V' - Ha| < 2 ^ e := by
    have t1 := abs_sub V' Ha
    have t2 := abs_add_le (V + La) (V' - (V + La))
    have t3 := abs_add_le h (Ha - h)
    rw [add_sub_cancel] at t2 t3
    rw [abs_of_nonneg h0] at t3
    norm_num at aV' b1 hε1 ⊢
    linarith
  have r5 := rnd_err_abs (by omega) aT
  rw [← ht] at r5
  refine (chain r1 q1 hsa r2 r3 l1 r4 r5).trans ?_
  have m1 : |sa| * (2 ^ (e - 54) + 842 / 100 / 2 ^ 53 * Rb) ≤
      S * (1 + 1 / 10 ^ 15) * (2 ^ (e - 54) + 842 / 100 / 2 ^ 53 * Rb) :=
    mul_le_mul_of_nonneg_right bsa (by have := R0.trans R1; positivity)
  have m2 : 204 / 100 / 2 ^ 53 * |s| * |Ha + R| ≤ 204 / 100 / 2 ^ 53 * S * (Hb + Rb + 1 / 10 ^ 15) := by
    refine mul_le_mul (mul_le_mul_of_nonneg_left hS (by norm_num)) ?_ (abs_nonneg _) (by positivity)
    rw [abs_le]; constructor <;> linarith
  have m3 : S * 2 ^ (e - 54) ≤ 1 * (1 / 10 ^ 15) := mul_le_mul (by linarith) hε1 hε0.le (by norm_num)
  have m4 : S * Rb ≤ 1 * 1 := mul_le_mul (by linarith) hRb (by linarith) (by norm_num)
  have m5 : 2 ^ (e - 54) * S ≤ 1 * (1 / 10 ^ 15) := by rw [mul_comm]; exact m3
  norm_num at m1 m2 m3 m4 m5 ⊢
  nlinarith

end HLL.Log
