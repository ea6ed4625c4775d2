import Verif.Proofs.LogUlp

/-!
# Bounds of the error of `src/log.rs` before the last two roundings
-/

namespace HLL.Log
open F64 LogPoly

/-- Bound of the error for small arguments, relative to the argument; here `k = 0`. -/
theorem err_rel {f s h R sa Ra Ha Q V t : ℚ} (hf : f * (1 - s) = 2 * s) (hh : h = f ^ 2 / 2)
    (hsa : |sa - s| ≤ 204 / 100 / 2 ^ 53 * |s|) (hRa : |Ra - R| ≤ 842 / 100 / 2 ^ 53 * R)
    (hHa : Ha = rnd h) (hQ : Q = rnd (Ha + Ra)) (hV : V = rnd (sa * Q)) (ht : t = rnd (V - Ha))
    (hS : |s| ≤ 1246 / 10000) (hs0 : 1 / 10 ^ 20 ≤ |s|) (R0 : 0 ≤ R) (R1 : R ≤ 7 / 10 * s ^ 2) :
    |t + f - (f - h + s * (h + R))| ≤ 95 / 100 * |s| / 2 ^ 53 := by
  have hη : (2 : ℚ) ^ (-1074 : ℤ) ≤ |s| / 10 ^ 40 := by
    refine (zpow_le_zpow_right₀ (by norm_num) (show (-1074 : ℤ) ≤ -200 by norm_num)).trans ?_
    norm_num at hs0 ⊢
    linarith
  have hη0 : (0 : ℚ) < 2 ^ (-1074 : ℤ) := by positivity
  have err : ∀ x : ℚ, |rnd x - x| ≤ |x| / 2 ^ 53 + 2 ^ (-1074 : ℤ) := fun x => by
    have := rnd_err x; rwa [Rat.cast_id] at this
  generalize (2 : ℚ) ^ (-1074 : ℤ) = η at *
  have hs := abs_le.1 hS
  have h1s : 0 < 1 - s := by linarith
  have hs2 : s ^ 2 ≤ 1246 / 10000 * |s| := by
    rw [← sq_abs]; nlinarith [abs_nonneg s]
  -- the half square
  have hh0 : 0 ≤ h := by rw [hh]; positivity
  have hφ : h * (1 - s) ^ 2 = 2 * s ^ 2 := by
    rw [hh]; linear_combination (f * (1 - s) + 2 * s) / 2 * hf
  have hh1 : h * (1 - s) ≤ 2848 / 10000 * |s| := by
    have : h * (1 - s) * (8754 / 10000) ≤ h * (1 - s) * (1 - s) :=
      mul_le_mul_of_nonneg_left (by linarith) (mul_nonneg hh0 h1s.le)
    nlinarith
  have hh2 : h ≤ 3265 / 10000 * |s| := by
    have : h * (8754 / 10000) ≤ h * (1 - s) := mul_le_mul_of_nonneg_left (by linarith) hh0
    linarith
  have hR : R ≤ 873 / 10000 * |s| := by linarith
  have a0 := abs_nonneg s
  generalize |s| = a at *
  have r1 := err h
  rw [← hHa, abs_of_nonneg hh0] at r1
  have r1' := abs_le.1 r1
  have q1' := abs_le.1 hRa
  have hHa0 : 0 ≤ Ha := by rw [hHa]; exact rnd_nonneg hh0
  have aQ : |Ha + Ra| ≤ 4139 / 10000 * a := by
    rw [abs_le]; norm_num at r1' q1' hη ⊢; constructor <;> linarith
  have r2 := err (Ha + Ra)
  rw [← hQ] at r2
  have r2' : |Q - (Ha + Ra)| ≤ 4140 / 10000 * a / 2 ^ 53 := by norm_num at r2 hη ⊢; linarith
  have bQ : |Q| ≤ 4140 / 10000 * a := by
    have t1 := abs_add_le (Ha + Ra) (Q - (Ha + Ra)); rw [add_sub_cancel] at t1
    norm_num at r2' ⊢; linarith
  have bsa : |sa| ≤ 12461 / 100000 := by
    have t1 := abs_add_le s (sa - s); rw [add_sub_cancel] at t1
    have : |s| ≤ 1246 / 10000 := abs_le.2 hs
    norm_num at hsa ⊢; linarith
  have aV : |sa * Q| ≤ 516 / 10000 * a := by
    rw [abs_mul]
    calc |sa| * |Q| ≤ 12461 / 100000 * (4140 / 10000 * a) := mul_le_mul bsa bQ (abs_nonneg _) (by norm_num)
      _ ≤ _ := by linarith
  have r3 := err (sa * Q)
  rw [← hV] at r3
  have r3' : |V - sa * Q| ≤ 517 / 10000 * a / 2 ^ 53 := by
    generalize |sa * Q| = w at *
    norm_num at r3 hη ⊢; linarith
  have m1 : |sa| * (4140 / 10000 * a / 2 ^ 53 + 842 / 100 / 2 ^ 53 * R) ≤ 1433 / 10000 * a / 2 ^ 53 := by
    calc _ ≤ 12461 / 100000 * (4140 / 10000 * a / 2 ^ 53 + 842 / 100 / 2 ^ 53 * R) :=
          mul_le_mul_of_nonneg_right bsa (by positivity)
      _ ≤ _ := by norm_num; linarith
  have m2 : 204 / 100 / 2 ^ 53 * a * |Ha + R| ≤ 1053 / 10000 * a / 2 ^ 53 := by
    have : |Ha + R| ≤ 516 / 10000 := by
      rw [abs_of_nonneg (by linarith)]
      norm_num at r1' hη; linarith
    calc _ ≤ 204 / 100 / 2 ^ 53 * a * (516 / 10000) := mul_le_mul_of_nonneg_left this (by positivity)
      _ ≤ _ := by norm_num; linarith
  have m3 : |1 - s| * (h / 2 ^ 53 + η) ≤ 2849 / 10000 * a / 2 ^ 53 := by
    rw [abs_of_pos h1s, mul_add]
    have : (1 - s) * η ≤ 2 * (a / 10 ^ 40) := mul_le_mul (by linarith) hη hη0.le (by norm_num)
    norm_num at this ⊢
    linarith
  have key := chain (f := f) (L0 := 0) (La := 0) (eL := 0) (e1 := 0) (et := 0) (V' := V) (t := V - Ha)
    r1 hRa hsa r2' r3' (by norm_num) (by norm_num) (by norm_num)
  have aT : |V - Ha| ≤ 297 / 1000 * a := by
    have e : V - Ha = (V - Ha + f - (f - h + s * (h + R) + 0)) + (s * R - h * (1 - s)) := by ring
    have t1 := abs_add_le (V - Ha + f - (f - h + s * (h + R) + 0)) (s * R - h * (1 - s))
    rw [← e, add_zero] at t1
    have t2 := abs_sub (s * R) (h * (1 - s))
    rw [abs_of_nonneg (mul_nonneg hh0 h1s.le), abs_mul, abs_of_nonneg R0] at t2
    have t3 : |s| * R ≤ 1246 / 10000 * (873 / 10000 * a) :=
      mul_le_mul (abs_le.2 hs) hR R0 (by norm_num)
    norm_num at key m1 m2 m3 t3 ⊢
    linarith
  have r4 := err (V - Ha)
  rw [← ht] at r4
  have r4' : |t - (V - Ha)| ≤ 298 / 1000 * a / 2 ^ 53 := by norm_num at r4 hη ⊢; linarith
  have key' := chain (f := f) (L0 := 0) (La := 0) (eL := 0) (e1 := 0) (V' := V)
    r1 hRa hsa r2' r3' (by norm_num) (by norm_num) r4'
  rw [add_zero] at key'
  refine key'.trans ?_
  norm_num at m1 m2 m3 ⊢
  linarith

theorem poly_le {z : ℚ} (h0 : 0 ≤ z) (h1 : z ≤ 2945 / 100000) :
    66 / 100 * z ≤ poly z ∧ poly z ≤ 7 / 10 * z := by
  have key : ∀ A : ℚ, 0 ≤ A → A ≤ 1 → 0 ≤ z * A ∧ z * A ≤ 3 / 100 := fun A a0 a1 =>
    ⟨mul_nonneg h0 a0, by nlinarith⟩
  simp only [poly, lg, eval, Rat.cast_id]
  norm_num only
  rw [mul_zero, add_zero]
  have k7 := key (1332903234475153 / 9007199254740992) (by norm_num) (by norm_num)
  have k6 := key (5517391500461727 / 36028797018963968 + z * (1332903234475153 / 9007199254740992))
    (by linarith) (by linarith)
  generalize z * (5517391500461727 / 36028797018963968 + z * (1332903234475153 / 9007199254740992)) = B6 at *
  have k5 := key (3275661152453103 / 18014398509481984 + B6) (by linarith) (by linarith)
  generalize z * (3275661152453103 / 18014398509481984 + B6) = B5 at *
  have k4 := key (8006390766270639 / 36028797018963968 + B5) (by linarith) (by linarith)
  generalize z * (8006390766270639 / 36028797018963968 + B5) = B4 at *
  have k3 := key (5146971033736025 / 18014398509481984 + B4) (by linarith) (by linarith)
  generalize z * (5146971033736025 / 18014398509481984 + B4) = B3 at *
  have k2 : 0 ≤ z * (1801439850921601 / 4503599627370496 + B3) ∧
      z * (1801439850921601 / 4503599627370496 + B3) ≤ 15 / 1000 :=
    ⟨mul_nonneg h0 (by linarith), by nlinarith⟩
  generalize z * (1801439850921601 / 4503599627370496 + B3) = B2 at *
  rw [mul_comm _ z, mul_comm _ z]
  exact ⟨mul_le_mul_of_nonneg_left (by linarith) h0, mul_le_mul_of_nonneg_left (by linarith) h0⟩

/-- Facts about `f`, `s`, `h = f²/2` and `R` used below. -/
theorem parts {f s : ℚ} (f3 : -(29290 / 100000) ≤ f) (f4 : f ≤ 41422 / 100000) (hs : s = f / (2 + f)) :
    f * (1 - s) = 2 * s ∧ |s| ≤ 1716 / 10000 ∧ 66 / 100 * s ^ 2 ≤ poly (s ^ 2) ∧
      poly (s ^ 2) ≤ 7 / 10 * s ^ 2 ∧ poly (s ^ 2) ≤ 205 / 10000 ∧
      (0 ≤ s ∧ f ^ 2 / 2 ≤ 858 / 10000 ∨ s < 0 ∧ f ^ 2 / 2 ≤ 429 / 10000) := by
  have hp : 0 < 2 + f := by linarith
  obtain ⟨s1, -⟩ := s_facts f3 f4
  rw [← hs] at s1
  have hz : s ^ 2 ≤ 2945 / 100000 := by
    rw [← sq_abs]
    calc |s| ^ 2 ≤ (1716 / 10000) ^ 2 := pow_le_pow_left₀ (abs_nonneg s) s1.le 2
      _ ≤ _ := by norm_num
  obtain ⟨a1, a2⟩ := poly_le (sq_nonneg s) hz
  refine ⟨by rw [hs]; field_simp; ring, s1.le, a1, a2, (poly_bound (sq_nonneg s) hz).2, ?_⟩
  rcases le_or_gt 0 f with h | h
  · left
    refine ⟨by rw [hs]; positivity, ?_⟩
    nlinarith
  · right
    refine ⟨by rw [hs]; exact div_neg_of_neg_of_pos h hp, ?_⟩
    nlinarith

section
variable {f s sa Ra Ha Q V La V' t : ℚ} {k : ℤ}

/-- The error before the last two roundings, for all arguments. -/
theorem err_coarse (hk : |k| ≤ 1100)
    (hsa : |sa - s| ≤ 204 / 100 / 2 ^ 53 * |s|) (hRa : |Ra - poly (s ^ 2)| ≤ 842 / 100 / 2 ^ 53 * poly (s ^ 2))
    (hHa : Ha = rnd (f ^ 2 / 2)) (hQ : Q = rnd (Ha + Ra)) (hV : V = rnd (sa * Q))
    (hLa : La = rnd ((k : ℚ) * (7382048951581814 / 2 ^ 85))) (hV' : V' = rnd (V + La))
    (ht : t = rnd (V' - Ha)) (f3 : -(29290 / 100000) ≤ f) (f4 : f ≤ 41422 / 100000)
    (hs : s = f / (2 + f)) :
    |t + f - (f - f ^ 2 / 2 + s * (f ^ 2 / 2 + poly (s ^ 2)) + k * (7382048951581814 / 2 ^ 85))| ≤
      2349 / 10000 / 2 ^ 53 := by
  obtain ⟨-, p2, p3, p4, p5, p6⟩ := parts f3 f4 hs
  have p30 : 0 ≤ poly (s ^ 2) := by nlinarith [sq_nonneg s]
  have hs' := abs_le.1 p2
  rcases p6 with ⟨a, b⟩ | ⟨a, b⟩
  · refine (err_abs hk hsa hRa hHa hQ hV hLa hV' ht p2 le_rfl (by positivity) b p30 p5 (-3)
      (by norm_num) (by norm_num) (by norm_num) (by norm_num)).trans ?_
    have : |1 - s| ≤ 1 := by rw [abs_le]; constructor <;> linarith
    norm_num
    linarith
  · refine (err_abs hk hsa hRa hHa hQ hV hLa hV' ht p2 le_rfl (by positivity) b p30 p5 (-3)
      (by norm_num) (by norm_num) (by norm_num) (by norm_num)).trans ?_
    have : |1 - s| ≤ 11716 / 10000 := by rw [abs_le]; constructor <;> linarith
    norm_num
    linarith

/-- The error before the last two roundings, for smaller arguments. -/
theorem err_fine (hk : |k| ≤ 1100)
    (hsa : |sa - s| ≤ 204 / 100 / 2 ^ 53 * |s|) (hRa : |Ra - poly (s ^ 2)| ≤ 842 / 100 / 2 ^ 53 * poly (s ^ 2))
    (hHa : Ha = rnd (f ^ 2 / 2)) (hQ : Q = rnd (Ha + Ra)) (hV : V = rnd (sa * Q))
    (hLa : La = rnd ((k : ℚ) * (7382048951581814 / 2 ^ 85))) (hV' : V' = rnd (V + La))
    (ht : t = rnd (V' - Ha)) (f3 : -(29290 / 100000) ≤ f) (f4 : f ≤ 41422 / 100000)
    (hs : s = f / (2 + f)) (hS : |s| ≤ 1246 / 10000) :
    |t + f - (f - f ^ 2 / 2 + s * (f ^ 2 / 2 + poly (s ^ 2)) + k * (7382048951581814 / 2 ^ 85))| ≤
      112 / 1000 / 2 ^ 53 := by
  obtain ⟨p1, p2, p3, p4, p5, -⟩ := parts f3 f4 hs
  have p30 : 0 ≤ poly (s ^ 2) := by nlinarith [sq_nonneg s]
  have hs' := abs_le.1 hS
  have hs2 : s ^ 2 ≤ 15526 / 10 ^ 6 := by
    rw [← sq_abs]
    calc |s| ^ 2 ≤ (1246 / 10000) ^ 2 := pow_le_pow_left₀ (abs_nonneg s) hS 2
      _ ≤ _ := by norm_num
  have hh : f ^ 2 / 2 ≤ 407 / 10000 := by
    have e : f ^ 2 / 2 * (1 - s) ^ 2 = 2 * s ^ 2 := by
      linear_combination (f * (1 - s) + 2 * s) / 2 * p1
    have e2 : (766 / 1000 : ℚ) ≤ (1 - s) ^ 2 := by nlinarith
    have e3 : f ^ 2 / 2 * (766 / 1000) ≤ f ^ 2 / 2 * (1 - s) ^ 2 :=
      mul_le_mul_of_nonneg_left e2 (by positivity)
    norm_num at hs2
    linarith
  have hR : poly (s ^ 2) ≤ 109 / 10000 := by norm_num at hs2; linarith
  refine (err_abs hk hsa hRa hHa hQ hV hLa hV' ht hS (by norm_num) (by positivity) hh p30 hR (-4)
      (by norm_num) (by norm_num) (by norm_num) (by norm_num)).trans ?_
  have : |1 - s| ≤ 11246 / 10000 := by rw [abs_le]; constructor <;> linarith
  norm_num
  linarith

end

end HLL.Log
