import Verif.Proofs.LogRel

/-!
# The error of `src/log.rs` is below one unit in the last place
-/

namespace HLL.Log
open F64 LogPoly

/-- The number of units in the last place, from exponents. -/
theorem le_of_two_pow {L : ℝ} {E F : ℤ} (h1 : (2 : ℝ) ^ F ≤ L) (h2 : L < 2 ^ (E + 1)) : F ≤ E := by
  have := (zpow_lt_zpow_iff_right₀ (by norm_num : (1 : ℝ) < 2)).1 (h1.trans_lt h2)
  omega

theorem cast_abs_le {a b : ℚ} (h : |a| ≤ b) : |(a : ℝ)| ≤ b := by
  have := (Rat.cast_le (K := ℝ)).2 h
  rwa [Rat.cast_abs] at this

/-- The error when the exponent `k` of the argument is zero. -/
theorem last_zero {L : ℝ} {f s sa Ra Ha Q V t A : ℚ} {E : ℤ}
    (f3 : -(29290 / 100000) ≤ f) (f4 : f ≤ 41422 / 100000) (hs : s = f / (2 + f))
    (hf0 : (1 / 2) ^ 53 ≤ |f|)
    (hsa : |sa - s| ≤ 204 / 100 / 2 ^ 53 * |s|) (hRa : |Ra - poly (s ^ 2)| ≤ 842 / 100 / 2 ^ 53 * poly (s ^ 2))
    (hHa : Ha = rnd (f ^ 2 / 2)) (hQ : Q = rnd (Ha + Ra)) (hV : V = rnd (sa * Q)) (ht : t = rnd (V - Ha))
    (hA : A = rnd (t + f))
    (coarse : |t + f - (f - f ^ 2 / 2 + s * (f ^ 2 / 2 + poly (s ^ 2)))| ≤ 2349 / 10000 / 2 ^ 53)
    (t1 : |((f - f ^ 2 / 2 + s * (f ^ 2 / 2 + poly (s ^ 2)) : ℚ) : ℝ) - L| ≤ |(s : ℝ)| * (2530 / 10 ^ 21))
    (hE : |L| < 2 ^ (E + 1)) : |(A : ℝ) - L| < 2 ^ (E - 52) := by
  obtain ⟨p1, p2, p3, p4, p5, -⟩ := parts f3 f4 hs
  have R0 : 0 ≤ poly (s ^ 2) := by nlinarith [sq_nonneg s]
  have hM : f - f ^ 2 / 2 + s * (f ^ 2 / 2 + poly (s ^ 2)) = s * (2 + poly (s ^ 2)) := by
    linear_combination (1 - f / 2) * p1
  have hs0 : 1 / 10 ^ 20 ≤ |s| := by
    have hp : 0 < 2 + f := by linarith
    rw [hs, abs_div, abs_of_pos hp, le_div_iff₀ hp]
    norm_num at hf0 ⊢
    linarith
  -- the size of the logarithm
  have hMa : |((s * (2 + poly (s ^ 2)) : ℚ) : ℝ)| = |(s : ℝ)| * (2 + (poly (s ^ 2) : ℚ)) := by
    have : (0 : ℝ) ≤ ((poly (s ^ 2) : ℚ) : ℝ) := by exact_mod_cast R0
    push_cast
    rw [abs_mul, abs_of_nonneg (a := 2 + _) (by linarith)]
  have hL : |(s : ℝ)| * (2 + (poly (s ^ 2) : ℚ)) ≤ |L| + |(s : ℝ)| * (2530 / 10 ^ 21) := by
    rw [← hMa]
    have := abs_add_le L (((s * (2 + poly (s ^ 2)) : ℚ) : ℝ) - L)
    rw [add_sub_cancel] at this
    rw [hM] at t1
    linarith
  have rel := fun hS => err_rel p1 rfl hsa hRa hHa hQ hV ht hS hs0 R0 p4
  have w1 : (s : ℝ) ^ 2 * (66 / 100) ≤ ((poly (s ^ 2) : ℚ) : ℝ) := by
    have := (Rat.cast_le (K := ℝ)).2 p3
    push_cast at this ⊢; linarith
  have ha : (1 / 10 ^ 20 : ℝ) ≤ |(s : ℝ)| := by
    have := (Rat.cast_le (K := ℝ)).2 hs0
    push_cast at this; exact this
  have hab : |(s : ℝ)| ≤ 1716 / 10000 := by
    have := cast_abs_le p2
    push_cast at this; exact this
  generalize f - f ^ 2 / 2 + s * (f ^ 2 / 2 + poly (s ^ 2)) = M at *
  have tri := abs_sub_le (((t + f : ℚ)) : ℝ) M L
  rw [← Rat.cast_sub] at tri
  generalize t + f - M = Z at *
  have hR0 : (0 : ℝ) ≤ ((poly (s ^ 2) : ℚ) : ℝ) := by exact_mod_cast R0
  rw [← sq_abs] at w1
  rw [hA]
  rcases le_or_gt |s| (1246 / 10000) with hS | hS
  · have r1 := cast_abs_le (rel hS)
    rw [Rat.cast_div, Rat.cast_mul, Rat.cast_abs] at r1
    push_cast at r1
    clear rel coarse hRa hsa w1
    generalize ((poly (s ^ 2) : ℚ) : ℝ) = R at *
    generalize |(s : ℝ)| = a at *
    have hL2 : 1999 / 1000 * a ≤ |L| := by
      have : 0 ≤ a * R := mul_nonneg (by norm_num at ha; linarith) hR0
      norm_num at hL; nlinarith
    have hE' : -900 ≤ E := by
      have : (2 : ℝ) ^ (-100 : ℤ) ≤ |L| := by norm_num at ha ⊢; linarith
      have := le_of_two_pow this hE
      omega
    refine rnd_one_ulp hE' hE ?_
    have e1 : (2 : ℝ) ^ (E - 53) = 2 ^ (E + 1) / 2 ^ 54 := by
      rw [show E - 53 = E + 1 - 54 by ring, zpow_sub₀ (by norm_num)]; norm_num
    rw [e1]
    generalize t + f = W at *
    norm_num at tri r1 t1 ha ⊢
    linarith
  · have hb : (1246 / 10000 : ℝ) < |(s : ℝ)| := by
      have := (Rat.cast_lt (K := ℝ)).2 hS
      push_cast at this; exact this
    have r1 := cast_abs_le coarse
    push_cast at r1
    clear rel coarse hRa hsa
    generalize ((poly (s ^ 2) : ℚ) : ℝ) = R at *
    generalize |(s : ℝ)| = a at *
    have hL2 : (2 : ℝ) ^ (-2 : ℤ) ≤ |L| := by
      have e1 : (1024 / 100000 : ℝ) ≤ R := by nlinarith
      have e2 : (1246 / 10000 : ℝ) * (2 + 1024 / 100000) ≤ a * (2 + R) :=
        mul_le_mul hb.le (by linarith) (by norm_num) (by linarith)
      norm_num at hL e2 ⊢; linarith
    have hE' := le_of_two_pow hL2 hE
    refine rnd_one_ulp (by omega) hE ?_
    have e1 : (2 : ℝ) ^ (-2 - 53 : ℤ) ≤ 2 ^ (E - 53) := zpow_le_zpow_right₀ (by norm_num) (by omega)
    generalize t + f = W at *
    norm_num at tri r1 t1 e1 ⊢
    linarith

/-- The error when the exponent `k` of the argument is not zero. -/
theorem last_nonzero {L : ℝ} {f s R Lo K M t A y : ℚ} {j : ℤ} {E : ℤ}
    (hM : M = s * (2 + R) + Lo) (hLo : |Lo| ≤ 3 / 10 ^ 7) (p2 : |s| ≤ 1716 / 10000)
    (p3 : 66 / 100 * s ^ 2 ≤ R) (p5 : R ≤ 205 / 10000) (hK : K = j * 2 ^ (-32 : ℤ))
    (coarse : |t + f - M| ≤ 2349 / 10000 / 2 ^ 53)
    (fine : |s| ≤ 1246 / 10000 → |t + f - M| ≤ 112 / 1000 / 2 ^ 53)
    (hA : A = rnd (t + f)) (hy : y = rnd (A + K)) (t1 : |((M + K : ℚ) : ℝ) - L| ≤ 55 / 10 ^ 20)
    (hL : 1 / 3 ≤ |L|) (hE : |L| < 2 ^ (E + 1)) : |(y : ℝ) - L| < 2 ^ (E - 52) := by
  have R0 : 0 ≤ R := by nlinarith [sq_nonneg s]
  have hMb : |M| ≤ 3469 / 10000 := by
    rw [hM]
    refine (abs_add_le _ _).trans ?_
    rw [abs_mul, abs_of_nonneg (a := 2 + R) (by linarith)]
    have : |s| * (2 + R) ≤ 1716 / 10000 * (2 + 205 / 10000) :=
      mul_le_mul p2 (by linarith) (by linarith) (by norm_num)
    norm_num at this hLo ⊢; linarith
  have htf : |t + f| < 7 / 20 := by
    have := abs_add_le M (t + f - M); rw [add_sub_cancel] at this
    norm_num at coarse; linarith
  have hA1 : |A - (t + f)| ≤ 25 / 100 / 2 ^ 53 := by
    rw [hA]
    exact (rnd_err_abs (E := -1) (by norm_num) (htf.trans (by norm_num))).trans (by norm_num)
  have hS : |((A + K : ℚ) : ℝ) - L| ≤ 4899 / 10000 / 2 ^ 53 := by
    have e : ((A + K : ℚ) : ℝ) - L = ((A - (t + f) : ℚ) : ℝ) + ((t + f - M : ℚ) : ℝ) + (((M + K : ℚ) : ℝ) - L) := by
      push_cast; ring
    rw [e]
    have a1 := cast_abs_le hA1
    have a2 := cast_abs_le coarse
    generalize A - (t + f) = Z1 at *
    generalize t + f - M = Z2 at *
    push_cast at a1 a2
    have b1 := abs_add_le ((Z1 : ℝ) + Z2) (((M + K : ℚ) : ℝ) - L)
    have b2 := abs_add_le (Z1 : ℝ) Z2
    generalize M + K = Z3 at *
    norm_num at a1 a2 t1 ⊢
    linarith
  have hE2 : -2 ≤ E := le_of_two_pow (L := |L|) (by norm_num; linarith) hE
  rcases le_or_gt (1 / 2) |L| with h | h
  · -- the last rounding
    have hE1 : -1 ≤ E := le_of_two_pow (L := |L|) (by norm_num; linarith) hE
    rw [hy]
    refine rnd_one_ulp (by omega) hE (hS.trans_lt ?_)
    have e1 : (2 : ℝ) ^ (-1 - 53 : ℤ) ≤ 2 ^ (E - 53) := zpow_le_zpow_right₀ (by norm_num) (by omega)
    refine lt_of_lt_of_le ?_ e1
    norm_num
  rcases le_or_gt (1 / 4) |t + f| with h4 | h4
  · -- the last addition is exact
    have hA4 : 2 ^ (-2 : ℤ) ≤ |A| := by
      have q4 : rnd (1 / 4 : ℚ) = 1 / 4 := by decide +kernel
      have : (1 / 4 : ℚ) ≤ |A| := by
        rcases le_abs.1 h4 with h5 | h5
        · have := rnd_mono h5
          rw [q4, ← hA] at this
          exact this.trans (le_abs_self _)
        · have := rnd_mono h5
          rw [q4, rnd_neg, ← hA] at this
          exact this.trans (neg_le_abs _)
      norm_num at this ⊢; exact this
    have hA5 : |A| < 2 ^ (-2 + 1 : ℤ) := by
      have := abs_add_le (t + f) (A - (t + f)); rw [add_sub_cancel] at this
      norm_num at hA1 ⊢; linarith
    obtain ⟨n, hn⟩ := mul_ulp (by rw [hA]; exact rnd_rnd _) (by norm_num) hA5 hA4
    have hsum : A + K = ((n + j * 2 ^ 22 : ℤ) : ℚ) * 2 ^ (-54 : ℤ) := by
      rw [hn, hK]; push_cast; norm_num; ring
    have hb : |n + j * 2 ^ 22| ≤ 2 ^ 53 := by
      have h6 : |((A + K : ℚ) : ℝ)| < 1 / 2 + 4899 / 10000 / 2 ^ 53 := by
        have := abs_add_le L (((A + K : ℚ) : ℝ) - L); rw [add_sub_cancel] at this
        linarith
      rw [hsum] at h6
      push_cast at h6
      rw [abs_mul, abs_of_pos (a := (2 : ℝ) ^ (-54 : ℤ)) (by positivity)] at h6
      have h7 : |((n + j * 2 ^ 22 : ℤ) : ℝ)| < ((2 ^ 53 + 1 : ℤ) : ℝ) := by
        push_cast
        norm_num at h6 ⊢
        linarith
      have : |n + j * 2 ^ 22| < 2 ^ 53 + 1 := by exact_mod_cast h7
      omega
    have hex : y = A + K := by
      rw [hy, hsum]
      exact rnd_of_int_mul hb (by norm_num)
    rw [hex]
    refine hS.trans_lt ?_
    have e1 : (2 : ℝ) ^ (-2 - 52 : ℤ) ≤ 2 ^ (E - 52) := zpow_le_zpow_right₀ (by norm_num) (by omega)
    refine lt_of_lt_of_le ?_ e1
    norm_num
  · -- a smaller argument
    have hs : |s| ≤ 1246 / 10000 := by
      by_contra hc
      rw [not_le] at hc
      have m1 : (1024 / 100000 : ℚ) ≤ R := by rw [← sq_abs] at p3; nlinarith
      have m2 : (1246 / 10000 : ℚ) * (2 + 1024 / 100000) ≤ |s| * (2 + R) :=
        mul_le_mul hc.le (by linarith) (by norm_num) (by linarith)
      have m3 : |s| * (2 + R) ≤ |t + f| + |t + f - M| + |Lo| := by
        have e : s * (2 + R) = (t + f) - (t + f - M) - Lo := by rw [hM]; ring
        have : |s| * (2 + R) = |s * (2 + R)| := by
          rw [abs_mul, abs_of_nonneg (a := 2 + R) (by linarith)]
        rw [this, e]
        exact (abs_sub _ _).trans (add_le_add_left (abs_sub _ _) _)
      norm_num at m2 hLo coarse
      linarith
    have hA1' : |A - (t + f)| ≤ 125 / 1000 / 2 ^ 53 := by
      rw [hA]
      exact (rnd_err_abs (E := -2) (by norm_num) (h4.trans_le (by norm_num))).trans (by norm_num)
    rw [hy]
    refine rnd_one_ulp (by omega) hE ?_
    have e1 : (2 : ℝ) ^ (-2 - 53 : ℤ) ≤ 2 ^ (E - 53) := zpow_le_zpow_right₀ (by norm_num) (by omega)
    refine lt_of_lt_of_le ?_ e1
    have e : ((A + K : ℚ) : ℝ) - L = ((A - (t + f) : ℚ) : ℝ) + ((t + f - M : ℚ) : ℝ) + (((M + K : ℚ) : ℝ) - L) := by
      push_cast; ring
    rw [e]
    have a1 := cast_abs_le hA1'
    have a2 := cast_abs_le (fine hs)
    generalize A - (t + f) = Z1 at *
    generalize t + f - M = Z2 at *
    push_cast at a1 a2
    have b1 := abs_add_le ((Z1 : ℝ) + Z2) (((M + K : ℚ) : ℝ) - L)
    have b2 := abs_add_le (Z1 : ℝ) Z2
    generalize M + K = Z3 at *
    norm_num at a1 a2 t1 ⊢
    linarith

/-- The error on positive doubles other than 1. -/
theorem kernel_one_ulp {q x : ℚ} {k : ℤ} (hk : |k| ≤ 1100) (hne : q ≠ 1) (hq : q = 2 ^ k * x)
    (h1 : splitPoint / 2 ≤ x) (h2 : x < splitPoint) (h3 : ∃ n : ℤ, x = n * 2 ^ (-53 : ℤ)) :
    ∃ y : ℚ, Is (kernel (fin x) k) y ∧ ∀ E : ℤ, |Real.log q| < 2 ^ (E + 1) →
      |(y : ℝ) - Real.log q| < 2 ^ (E - 52) := by
  have hx0 : (0 : ℚ) < x := by
    have : (0 : ℚ) < splitPoint / 2 := by unfold splitPoint; norm_num
    exact this.trans_le h1
  obtain ⟨_, f2, f3, f4, f5⟩ := f_facts h1 h2 h3
  obtain ⟨sa, Ra, Ha, Q, V, La, V', t, A, y, jy, hsa, hRa, hHa, hQ, hV, hLa, hV', ht, hA, hy⟩ :=
    kernel_values hk h1 h2 h3 rfl rfl
  obtain ⟨s1, -⟩ := s_facts f3 f4
  have t1 := formula_err hx0 hq rfl rfl s1 rfl
  obtain ⟨p1, p2, p3, p4, p5, -⟩ := parts f3 f4 rfl
  obtain ⟨-, l2⟩ := log_lower h1 h2 hq
  obtain ⟨-, lo2⟩ := low_err hk
  have hκ : |(k : ℝ)| ≤ 1100 := by exact_mod_cast hk
  refine ⟨y, jy, fun E hE => ?_⟩
  have coarse := err_coarse hk hsa hRa hHa hQ hV hLa hV' ht f3 f4 rfl
  have fine := err_fine hk hsa hRa hHa hQ hV hLa hV' ht f3 f4 rfl
  rcases eq_or_ne k 0 with rfl | hk0
  · have hx1 : x - 1 ≠ 0 := by
      intro h
      apply hne
      rw [hq, sub_eq_zero.1 h]; norm_num
    have hLa0 : La = 0 := by rw [hLa]; simp [rnd_zero]
    have hVV : V' = V := by rw [hV', hLa0, add_zero, hV, rnd_rnd]
    have hyA : y = A := by
      rw [hy, Int.cast_zero, zero_mul, add_zero, hA, rnd_rnd]
    rw [hyA]
    simp only [Int.cast_zero, zero_mul, add_zero, zero_add, abs_zero] at coarse t1
    exact last_zero f3 f4 rfl (f5.resolve_left hx1) hsa hRa hHa hQ hV (hVV ▸ ht) hA coarse t1 hE
  · have hk1 : (1 : ℝ) ≤ |(k : ℝ)| := by exact_mod_cast Int.one_le_abs hk0
    generalize x - 1 = f at *
    generalize hs : f / (2 + f) = s at *
    have hM : f - f ^ 2 / 2 + s * (f ^ 2 / 2 + poly (s ^ 2)) + k * (7382048951581814 / 2 ^ 85) =
        s * (2 + poly (s ^ 2)) + k * (7382048951581814 / 2 ^ 85) := by
      linear_combination (1 - f / 2) * p1
    refine last_nonzero (j := k * 2977044471) hM lo2 p2 p3 p5 ?_ coarse fine hA hy ?_ (by linarith) hE
    · push_cast; norm_num; ring
    · have e : (k : ℚ) * ln2 + (f - f ^ 2 / 2 + s * (f ^ 2 / 2 + poly (s ^ 2))) =
          f - f ^ 2 / 2 + s * (f ^ 2 / 2 + poly (s ^ 2)) + k * (7382048951581814 / 2 ^ 85) +
            k * (2977044471 / 2 ^ 32) := by rw [ln2]; ring
      rw [e] at t1
      refine t1.trans ?_
      have hs' : |(s : ℝ)| ≤ 1716 / 10000 := by
        have := cast_abs_le p2
        push_cast at this; exact this
      norm_num
      linarith

/-- On positive doubles other than 1 the error is less than one unit in the last place. -/
theorem log_one_ulp (cfg : Cfg) (nb : U64) {q : ℚ} (hq : rnd q = q) (h0 : 0 < q) (h1 : q < 2 ^ 1024)
    (hne : q ≠ 1) :
    ∃ y : ℚ, log cfg nb (fin q) = .ok (fin y) ∧ ∀ E : ℤ, |Real.log q| < 2 ^ (E + 1) →
      |(y : ℝ) - Real.log q| < 2 ^ (E - 52) := by
  obtain ⟨y, a1, -, -⟩ := log_accurate cfg nb hq h0 h1
  obtain ⟨x, k, e1, e2, e3, e4, k1, k2, e5⟩ := log_pos cfg nb hq h0 h1 hne
  obtain ⟨y', b1, b2⟩ := kernel_one_ulp (abs_le.2 ⟨by omega, by omega⟩) hne e2 e3 e4 e5
  rw [e1] at a1
  have : kernel (fin x) k = fin y := by injection a1
  rw [this] at b1
  rw [(Is.fin y).inj b1] at a1
  exact ⟨y', by rw [e1, a1], b2⟩

end HLL.Log
