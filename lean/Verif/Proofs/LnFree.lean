import Verif.Proofs.Monotone
import Verif.Proofs.PFNum

/-!
# Counts computed with different logarithms

`count` calls the logarithm once.  Two logarithms that meet `LnSpec` return nearly the same number, and
the comparison of linear counting with the threshold comes out the same: no number of empty registers
gives a value close enough to a threshold.
-/

namespace HLL
open Spec F64

/-- The number of empty registers from which on linear counting is preferred, for precisions 4 to 18:
the first `V` with `2^p ln(2^p / V) ≤ threshold p`. -/
def cutoff (p : Nat) : Nat :=
  [9, 24, 35, 69, 109, 235, 426, 851, 1922, 3706, 8121, 17799, 30560, 52469, 68976].getD (p - 4) 0

/-- A partial sum of the exponential series. -/
def expSum (x : ℚ) : ℚ := ∑ i ∈ Finset.range 10, x ^ i / i.factorial

theorem expSum_le {x : ℚ} (h : 0 ≤ x) : (expSum x : ℝ) ≤ Real.exp x := by
  have := Real.sum_le_exp_of_nonneg (x := x) (by exact_mod_cast h) 10
  rw [expSum]
  push_cast
  exact this

theorem le_expSum {x : ℚ} (h : 0 ≤ x) (h1 : x ≤ 1) : Real.exp x ≤ (expSum x + x ^ 10 * 11 / (3628800 * 10) : ℚ) := by
  have := Real.exp_bound' (x := x) (by exact_mod_cast h) (by exact_mod_cast h1) (n := 10) (by norm_num)
  rw [expSum]
  push_cast
  refine this.trans (le_of_eq ?_)
  norm_num [Nat.factorial]

/-- The inequalities between the powers of e^(1/2), evaluated. -/
def cutCheck (p : Nat) : Bool :=
  let m : ℚ := 2 ^ p
  let lo : ℚ := (threshold p - 1 / 20) / (2 * m)
  let hi : ℚ := (threshold p + 1 / 20) / (2 * m)
  decide (0 ≤ lo) && decide (hi ≤ 1) && decide (m ≤ cutoff p * expSum lo ^ 2) &&
    decide ((expSum hi + hi ^ 10 * 11 / (3628800 * 10)) ^ 2 * (cutoff p - 1) ≤ m) &&
    decide (2 ≤ cutoff p) && decide (cutoff p ≤ 2 ^ p)

theorem cutChecks : ∀ q : Fin 15, cutCheck (4 + q) = true := by decide +kernel

/-- Linear counting is below the threshold at `cutoff p` empty registers and above it with one less. -/
theorem log_cutoff {p : Nat} (hp1 : 4 ≤ p) (hp2 : p ≤ 18) :
    2 ≤ cutoff p ∧ cutoff p ≤ 2 ^ p ∧
    2 ^ p * Real.log (2 ^ p / cutoff p) ≤ threshold p - 1 / 20 ∧
    threshold p + 1 / 20 ≤ 2 ^ p * Real.log (2 ^ p / (cutoff p - 1 : ℝ)) := by
  have h := cutChecks ⟨p - 4, by omega⟩
  simp only [show 4 + (p - 4) = p by omega] at h
  simp only [cutCheck, Bool.and_eq_true, decide_eq_true_eq] at h
  obtain ⟨⟨⟨⟨⟨h1, h2⟩, h3⟩, h4⟩, h5⟩, h6⟩ := h
  have hm : (0 : ℝ) < 2 ^ p := by positivity
  have hc : (2 : ℝ) ≤ cutoff p := by exact_mod_cast h5
  have hlohi : ((threshold p : ℚ) - 1 / 20) / (2 * 2 ^ p) ≤ ((threshold p : ℚ) + 1 / 20) / (2 * 2 ^ p) := by
    apply div_le_div_of_nonneg_right _ (by positivity)
    linarith
  have e1 := expSum_le h1
  have e2 := le_expSum (h1.trans hlohi) h2
  refine ⟨h5, h6, ?_, ?_⟩
  · have hE0 : (0 : ℝ) ≤ (expSum (((threshold p : ℚ) - 1 / 20) / (2 * 2 ^ p)) : ℚ) := by
      have : 0 ≤ expSum (((threshold p : ℚ) - 1 / 20) / (2 * 2 ^ p)) :=
        Finset.sum_nonneg fun i _ => by positivity
      exact_mod_cast this
    have h3' : (2 : ℝ) ^ p ≤ cutoff p * (expSum (((threshold p : ℚ) - 1 / 20) / (2 * 2 ^ p)) : ℚ) ^ 2 := by
      exact_mod_cast h3
    have h7 : (2 : ℝ) ^ p / cutoff p ≤ Real.exp (((threshold p : ℝ) - 1 / 20) / 2 ^ p) := by
      rw [div_le_iff₀ (by linarith)]
      have h8 := pow_le_pow_left₀ hE0 e1 2
      rw [← Real.exp_nat_mul] at h8
      have e : ((2 : ℕ) : ℝ) * ((((threshold p : ℚ) - 1 / 20) / (2 * 2 ^ p) : ℚ) : ℝ) =
          ((threshold p : ℝ) - 1 / 20) / 2 ^ p := by
        push_cast; field_simp
      rw [e] at h8
      have h9 := mul_le_mul_of_nonneg_left h8 (show (0 : ℝ) ≤ cutoff p by linarith)
      linarith
    have h10 := (Real.log_le_iff_le_exp (by positivity)).2 h7
    have h11 := mul_le_mul_of_nonneg_left h10 hm.le
    rwa [mul_div_cancel₀ _ hm.ne'] at h11
  · have h4' : ((expSum (((threshold p : ℚ) + 1 / 20) / (2 * 2 ^ p)) +
        (((threshold p : ℚ) + 1 / 20) / (2 * 2 ^ p)) ^ 10 * 11 / (3628800 * 10) : ℚ) : ℝ) ^ 2 * (cutoff p - 1 : ℝ)
        ≤ 2 ^ p := by exact_mod_cast h4
    have h7 : Real.exp (((threshold p : ℝ) + 1 / 20) / 2 ^ p) ≤ (2 : ℝ) ^ p / (cutoff p - 1 : ℝ) := by
      rw [le_div_iff₀ (by linarith)]
      have h8 := pow_le_pow_left₀ (Real.exp_pos _).le e2 2
      rw [← Real.exp_nat_mul] at h8
      have e : ((2 : ℕ) : ℝ) * ((((threshold p : ℚ) + 1 / 20) / (2 * 2 ^ p) : ℚ) : ℝ) =
          ((threshold p : ℝ) + 1 / 20) / 2 ^ p := by
        push_cast; field_simp
      rw [e] at h8
      exact (mul_le_mul_of_nonneg_right h8 (by linarith)).trans h4'
    have h10 := (Real.le_log_iff_exp_le (div_pos hm (by linarith))).2 h7
    have h11 := mul_le_mul_of_nonneg_left h10 hm.le
    rwa [mul_div_cancel₀ _ hm.ne'] at h11

/-- Which side of the threshold linear counting is on does not depend on the logarithm. -/
theorem linear_le_threshold {ln : F64 → F64} (hln : LnSpec ln) {p V : Nat} (hp1 : 4 ≤ p) (hp2 : p ≤ 18)
    (h0 : 0 < V) (hV : V ≤ 2 ^ p) :
    le (linear ln (2 ^ p) V) (num (threshold p)) = true ↔ cutoff p ≤ V := by
  have h18 : 2 ^ p ≤ 2 ^ 18 := Nat.pow_le_pow_right (by norm_num) hp2
  have hm18 : (2 : ℝ) ^ p ≤ 2 ^ 18 := by exact_mod_cast h18
  obtain ⟨c1, c2, c3, c4⟩ := log_cutoff hp1 hp2
  have hT : (threshold p : ℝ) ≤ 5 * 2 ^ p := by exact_mod_cast threshold_le hp1 hp2
  constructor
  · intro h
    by_contra hlt
    push Not at hlt
    obtain ⟨y, y', k1, k2, k3⟩ := linear_le hln (m := 2 ^ p) (V := cutoff p - 1) (V' := V) h0 (by omega) (by omega)
      (by omega)
    rw [k2, num, le_fin] at h
    obtain ⟨z, m1, _, m3⟩ := linear_approx hln (m := 2 ^ p) (V := cutoff p - 1) (by omega) (by omega) (by omega)
    rw [k1] at m1
    cases m1
    have hy : (y : ℝ) ≤ threshold p := by exact_mod_cast k3.trans h
    have e : (((cutoff p - 1 : ℕ)) : ℝ) = cutoff p - 1 := by rw [Nat.cast_sub (by omega)]; norm_num
    rw [e, Nat.cast_pow, Nat.cast_ofNat] at m3
    have h4 := (abs_le.1 m3).1
    generalize (2 : ℝ) ^ p * Real.log (2 ^ p / (cutoff p - 1 : ℝ)) = L at *
    norm_num at h4 hm18
    linarith
  · intro h
    obtain ⟨y, y', k1, k2, k3⟩ := linear_le hln (m := 2 ^ p) (V := V) (V' := cutoff p) (by omega) h hV (by omega)
    obtain ⟨z, m1, _, m3⟩ := linear_approx hln (m := 2 ^ p) (V := cutoff p) (by omega) c2 (by omega)
    rw [k2] at m1
    cases m1
    rw [k1, num, le_fin]
    refine k3.trans ?_
    rw [Nat.cast_pow, Nat.cast_ofNat] at m3
    have h4 := (abs_le.1 m3).2
    have : (y' : ℝ) ≤ threshold p := by
      generalize (2 : ℝ) ^ p * Real.log (2 ^ p / (cutoff p : ℝ)) = L at *
      norm_num at h4 hm18
      linarith
    exact_mod_cast this

/-- A product with a logarithm is computed with a relative error just above `2^-40`. -/
theorem mul_ln_approx {ln : F64 → F64} (hln : LnSpec ln) {s q : ℚ} (hs1 : 1 ≤ |s|) (hs2 : |s| ≤ 2 ^ 32)
    (hsq : 0 ≤ (s : ℝ) * Real.log q)
    (hq : rnd q = q) (h0 : 0 < q) (h1 : q < 2 ^ 1024) (hne : q ≠ 1) :
    ∃ y : ℚ, mul (fin s) (ln (fin q)) = fin y ∧
      |(y : ℝ) - s * Real.log q| ≤ s * Real.log q * (1 / 2 ^ 40 + 1 / 2 ^ 52) := by
  obtain ⟨u, hu1, hu2⟩ := hln.pos q hq h0 h1
  have hl := abs_log_ge hq h0 hne
  have hl2 := abs_log_le hq h0 h1
  have hs1' : (1 : ℝ) ≤ |(s : ℝ)| := by exact_mod_cast hs1
  have hs2' : |(s : ℝ)| ≤ 2 ^ 32 := by exact_mod_cast hs2
  have hsL : |(s : ℝ)| * |Real.log q| = s * Real.log q := by rw [← abs_mul, abs_of_nonneg hsq]
  have hx : |(s : ℝ) * u - s * Real.log q| ≤ s * Real.log q / 2 ^ 40 := by
    rw [← mul_sub, abs_mul, ← hsL, mul_div_assoc]
    exact mul_le_mul_of_nonneg_left hu2 (abs_nonneg _)
  have hP : (2 : ℝ) ^ (-54 : ℤ) ≤ s * Real.log q := by
    rw [← hsL]
    have := mul_le_mul hs1' hl (by positivity) (abs_nonneg _)
    linarith
  have hP2 : (s : ℝ) * Real.log q ≤ 2 ^ 43 := by
    rw [← hsL]
    have := mul_le_mul hs2' hl2 (abs_nonneg _) (by positivity)
    norm_num at this ⊢
    linarith
  generalize (s : ℝ) * Real.log q = P at *
  obtain ⟨x1, x2⟩ := abs_le.1 hx
  have hsu : (2 : ℝ) ^ (-55 : ℤ) ≤ s * u := by norm_num at *; linarith
  have hsu2 : (s : ℝ) * u ≤ 2 ^ 44 := by norm_num at *; linarith
  have hsuQ : (2 : ℚ) ^ (-55 : ℤ) ≤ s * u := by
    have : (((2 : ℚ) ^ (-55 : ℤ) : ℚ) : ℝ) ≤ ((s * u : ℚ) : ℝ) := by push_cast; exact hsu
    exact_mod_cast this
  have hsuQ2 : s * u ≤ 2 ^ 44 := by exact_mod_cast hsu2
  have hpos : 0 < s * u := lt_of_lt_of_le (by positivity) hsuQ
  have hrel := abs_rnd_sub_le_rel (K := ℚ) (x := s * u) (by
    rw [abs_of_pos hpos]
    exact le_trans (zpow_le_zpow_right₀ (by norm_num) (by norm_num)) hsuQ)
  rw [abs_of_pos hpos, Rat.cast_id] at hrel
  refine ⟨rnd (s * u), ?_, ?_⟩
  · rw [hu1, mul_fin, round_fin]
    · rw [abs_of_pos hpos]
      exact hsuQ2.trans (pow_le_pow_right₀ (by norm_num) (by norm_num))
    · right
      apply ne_of_gt
      apply rnd_pos
      exact le_trans (zpow_le_zpow_right₀ (by norm_num) (by norm_num)) hsuQ
  · have hrel' : |((rnd (s * u) : ℚ) : ℝ) - s * u| ≤ s * u / 2 ^ 53 := by
      have := (Rat.cast_le (K := ℝ)).2 hrel
      push_cast at this
      exact this
    obtain ⟨r1, r2⟩ := abs_le.1 hrel'
    have h0P : 0 < P := lt_of_lt_of_le (by positivity) hP
    rw [abs_le]
    clear hP hsu
    norm_num at *
    constructor <;> linarith

/-- Two numbers computed from the same true value `P` with that error. -/
theorem agree_of_approx {y y' : ℚ} {P : ℝ} (hP : 0 ≤ P) (h : |(y : ℝ) - P| ≤ P * (1 / 2 ^ 40 + 1 / 2 ^ 52))
    (h' : |(y' : ℝ) - P| ≤ P * (1 / 2 ^ 40 + 1 / 2 ^ 52)) : |y - y'| ≤ y / 2 ^ 38 := by
  obtain ⟨a1, a2⟩ := abs_le.1 h
  obtain ⟨b1, b2⟩ := abs_le.1 h'
  have : |(y : ℝ) - y'| ≤ y / 2 ^ 38 := by
    rw [abs_le]
    norm_num at *
    constructor <;> linarith
  have h2 : ((|y - y'| : ℚ) : ℝ) ≤ ((y / 2 ^ 38 : ℚ) : ℝ) := by push_cast; exact this
  exact_mod_cast h2

/-- Linear counting with two logarithms. -/
theorem linear_agree {ln ln' : F64 → F64} (hln : LnSpec ln) (hln' : LnSpec ln') {m V : ℕ} (hV : 0 < V)
    (hVm : V ≤ m) (hm : m ≤ 2 ^ 24) :
    ∃ y y' : ℚ, linear ln m V = fin y ∧ linear ln' m V = fin y' ∧ |y - y'| ≤ y / 2 ^ 38 := by
  have hm0 : 0 < m := by omega
  have hVq : (0 : ℚ) < V := by exact_mod_cast hV
  have hmq : (1 : ℚ) ≤ m := by exact_mod_cast hm0
  have hVmq : (V : ℚ) ≤ m := by exact_mod_cast hVm
  have hm24q : (m : ℚ) ≤ 2 ^ 24 := by exact_mod_cast hm
  have hV1 : (1 : ℚ) ≤ V := by exact_mod_cast hV
  rcases hVm.eq_or_lt with rfl | hlt
  · exact ⟨0, 0, linear_self hln hm0 hm, linear_self hln' hm0 hm, by norm_num⟩
  have hx1 : (1 : ℚ) ≤ m / V := by rw [le_div_iff₀ hVq]; linarith
  have hx2 : (m : ℚ) / V ≤ 2 ^ 24 := by rw [div_le_iff₀ hVq]; nlinarith
  have hdiv : div (num m) (num V) = fin (rnd ((m : ℚ) / V)) :=
    div_fin_nonneg (by linarith) hVq (le_trans hx2 (pow_le_pow_right₀ (by norm_num) (by norm_num)))
  have hone : rnd (1 : ℚ) = 1 := by exact_mod_cast rnd_natCast (K := ℚ) (n := 1) (by norm_num)
  have h24 : rnd ((2 : ℚ) ^ 24) = 2 ^ 24 := by
    exact_mod_cast rnd_natCast (K := ℚ) (n := 2 ^ 24) (by norm_num)
  unfold linear
  rw [hdiv, num]
  have hqd : rnd (rnd ((m : ℚ) / V)) = rnd ((m : ℚ) / V) := rnd_idem _
  have hq1 : 1 ≤ rnd ((m : ℚ) / V) := le_rnd_of_le hone (by simpa using hx1)
  have hq2 : rnd ((m : ℚ) / V) ≤ 2 ^ 24 := rnd_le_of_le h24 (by simpa using hx2)
  generalize rnd ((m : ℚ) / V) = q at *
  have hq3 : q < 2 ^ 1024 := lt_of_le_of_lt hq2 (pow_lt_pow_right₀ (by norm_num) (by norm_num))
  by_cases h1 : q = 1
  · subst h1
    rw [hln.one, hln'.one]
    refine ⟨0, 0, ?_, ?_, by norm_num⟩ <;>
    · rw [mul_fin_nonneg (by linarith) le_rfl (by simp), mul_zero, rnd_zero]
  have hlog : 0 ≤ (((m : ℕ) : ℚ) : ℝ) * Real.log q :=
    mul_nonneg (by positivity) (Real.log_nonneg (by exact_mod_cast hq1))
  have habs : |((m : ℕ) : ℚ)| = m := abs_of_pos (by linarith)
  obtain ⟨y, k1, k2⟩ := mul_ln_approx hln (s := (m : ℚ)) (by rw [habs]; exact hmq)
    (by rw [habs]; exact hm24q.trans (by norm_num)) hlog hqd (by linarith) hq3 h1
  obtain ⟨y', k1', k2'⟩ := mul_ln_approx hln' (s := (m : ℚ)) (by rw [habs]; exact hmq)
    (by rw [habs]; exact hm24q.trans (by norm_num)) hlog hqd (by linarith) hq3 h1
  exact ⟨y, y', k1, k1', agree_of_approx hlog k2 k2'⟩

/-- The large range correction with two logarithms. -/
theorem largeRange_agree {ln ln' : F64 → F64} (hln : LnSpec ln) (hln' : LnSpec ln') {q : ℚ} (hq : rnd q = q)
    (h1 : 2 ^ 32 / 31 ≤ q) (h2 : q < 2 ^ 32) :
    ∃ y y' : ℚ, mul (mul (neg (num 1)) (num (2 ^ 32))) (ln (sub (num 1) (div (fin q) (num (2 ^ 32))))) = fin y ∧
      mul (mul (neg (num 1)) (num (2 ^ 32))) (ln' (sub (num 1) (div (fin q) (num (2 ^ 32))))) = fin y' ∧
      |y - y'| ≤ y / 2 ^ 38 := by
  obtain ⟨_, _, _, _, z0, z1, _⟩ := largeRange_lt hln hq h1 h2
  rw [largeArg hq h1 (le_trans h2.le (by norm_num)), minus_two32]
  have hzr : rnd (rnd (1 - q / 2 ^ 32)) = rnd (1 - q / 2 ^ 32) := rnd_rnd _
  generalize rnd (1 - q / 2 ^ 32) = z at *
  have hz1 : z < 2 ^ 1024 := lt_of_le_of_lt (z1.trans (by norm_num : (127 / 128 : ℚ) ≤ 1))
    (one_lt_pow₀ (by norm_num) (by norm_num))
  have hzR0 : (0 : ℝ) ≤ z := by exact_mod_cast z0.le
  have hzR1 : (z : ℝ) ≤ 1 := by
    have : z ≤ 1 := by linarith
    exact_mod_cast this
  have hl := Real.log_nonpos hzR0 hzR1
  have hs : 0 ≤ ((-(2 ^ 32) : ℚ) : ℝ) * Real.log z := mul_nonneg_of_nonpos_of_nonpos (by norm_num) hl
  obtain ⟨y, k1, k2⟩ := mul_ln_approx hln (s := -(2 ^ 32)) (by norm_num) (by norm_num) hs hzr z0 hz1 (by linarith)
  obtain ⟨y', k1', k2'⟩ := mul_ln_approx hln' (s := -(2 ^ 32)) (by norm_num) (by norm_num) hs hzr z0 hz1 (by linarith)
  exact ⟨y, y', k1, k1', agree_of_approx hs k2 k2'⟩

end HLL
