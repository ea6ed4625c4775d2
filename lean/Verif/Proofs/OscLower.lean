import Verif.Proofs.Moments

/-! # Lower bounds for the sums of second moments -/

namespace HLL.Osc
open Real Finset

/-- Lower bounds for `3·2^108 inc2` and `3·2^108 dec2` at `a/2^11`. -/
def lows2 (a : Nat) : Nat × Nat :=
  let r := acc 0 4 12 (lo0 a) 1 0
  (a * a * (3 * r.1 + 2 ^ 64), 3 * (a * a) * (acc 0 4 5 r.2 (4 ^ 12) 0).1)

theorem lows2_le {a : Nat} (ha : a ≤ 4096) :
    ((lows2 a).1 : ℝ) / (3 * 2 ^ 108) ≤ inc2 (a / 2 ^ 11) ∧
      ((lows2 a).2 : ℝ) / (3 * 2 ^ 108) ≤ dec2 (a / 2 ^ 11) := by
  obtain ⟨h1, h2⟩ := acc_lo 4 12 (lo0 a) 1 0 (a / 2 ^ 22) (exp_start ha).1
  obtain ⟨h3, -⟩ := acc_lo 4 5 _ (4 ^ 12) 0 _ h2
  have e : (a : ℝ) / 2 ^ 11 / 2 ^ 11 = a / 2 ^ 22 := by ring
  have ha0 : (0 : ℝ) ≤ (a / 2 ^ 22) ^ 2 := by positivity
  have h4 : ∀ j : ℕ, (4 : ℝ) ^ j = (2 ^ j) ^ 2 := fun j => by rw [← pow_mul, mul_comm, pow_mul]; norm_num
  constructor
  · have : ((lows2 a).1 : ℝ) / (3 * 2 ^ 108) =
        (a / 2 ^ 22) ^ 2 * (((acc 0 4 12 (lo0 a) 1 0).1 : ℝ) / 2 ^ 64 + 1 / 3) := by
      simp only [lows2]; push_cast; ring
    rw [this, inc2, e]
    refine (mul_le_mul_of_nonneg_left (add_le_add h1 le_rfl) ha0).trans (le_of_eq ?_)
    rw [mul_add, mul_add, mul_sum, mul_one_div]
    simp only [Nat.cast_zero, zero_div, mul_zero, zero_add, Nat.cast_one, one_mul, q]
    congr 1
    refine sum_congr rfl fun j _ => ?_
    push_cast; rw [h4]; ring
  · have : ((lows2 a).2 : ℝ) / (3 * 2 ^ 108) = (a / 2 ^ 22) ^ 2 *
        (((acc 0 4 5 (acc 0 4 12 (lo0 a) 1 0).2 (4 ^ 12) 0).1 : ℝ) / 2 ^ 64) := by
      simp only [lows2]; push_cast; ring
    rw [this, dec2]
    refine (mul_le_mul_of_nonneg_left h3 ha0).trans (le_of_eq ?_)
    rw [mul_add, mul_sum]
    simp only [Nat.cast_zero, zero_div, mul_zero, zero_add, q]
    refine sum_congr rfl fun j _ => ?_
    rw [show (2 : ℝ) ^ 12 * (a / 2 ^ 22) = 2 * (a / 2 ^ 11) by ring]
    push_cast; rw [h4]; ring

/-- One cell of the grid. -/
def cell2 (a : Nat) : Bool :=
  decide (14405 * (3 * 2 ^ 108) / 10000 + 1 ≤ (lows2 a).1 + (lows2 (a + 4)).2)

set_option maxRecDepth 100000 in
theorem cells2 : ((List.range 512).all fun i => cell2 (2048 + 4 * i)) = true := by decide +kernel

theorem bounds2 {ρ : ℝ} (h1 : 1 ≤ ρ) (h2 : ρ ≤ 2) : 1.4405 ≤ inc2 ρ + dec2 ρ := by
  obtain ⟨i, hi, hl, hr⟩ : ∃ i < 512, ((2048 + 4 * i : ℕ) : ℝ) / 2 ^ 11 ≤ ρ ∧
      ρ ≤ ((2048 + 4 * i + 4 : ℕ) : ℝ) / 2 ^ 11 := by
    rcases eq_or_lt_of_le h2 with rfl | h2
    · exact ⟨511, by norm_num, by norm_num, by norm_num⟩
    · have h0 : 0 ≤ (ρ - 1) * 512 := by nlinarith
      refine ⟨⌊(ρ - 1) * 512⌋₊, ?_, ?_, ?_⟩
      · rw [Nat.floor_lt h0]; push_cast; linarith
      · have := Nat.floor_le h0
        rw [div_le_iff₀ (by positivity)]; push_cast; linarith
      · have := Nat.lt_floor_add_one ((ρ - 1) * 512)
        rw [le_div_iff₀ (by positivity)]; push_cast; linarith
  have hc := List.all_eq_true.1 cells2 i (List.mem_range.2 hi)
  generalize ha : 2048 + 4 * i = a at *
  have ha0 : (1 : ℝ) ≤ (a : ℝ) / 2 ^ 11 := by
    rw [le_div_iff₀ (by positivity), ← ha]; push_cast; linarith [Nat.cast_nonneg (α := ℝ) i]
  simp only [cell2, decide_eq_true_eq] at hc
  obtain ⟨l1, -⟩ := lows2_le (a := a) (by omega)
  obtain ⟨-, l2⟩ := lows2_le (a := a + 4) (by omega)
  have m1 := inc2_mono (by linarith) hl h2
  have m4 := dec2_anti h1 hr
  have h : ((14405 * (3 * 2 ^ 108) / 10000 + 1 : ℕ) : ℝ) ≤ (((lows2 a).1 + (lows2 (a + 4)).2 : ℕ) : ℝ) := by
    exact_mod_cast hc
  rw [Nat.cast_add (lows2 a).1] at h
  have hd : (1.4405 : ℝ) * (3 * 2 ^ 108) ≤ ((14405 * (3 * 2 ^ 108) / 10000 + 1 : ℕ) : ℝ) := by norm_num
  have : (1.4405 : ℝ) ≤ (lows2 a).1 / (3 * 2 ^ 108) + (lows2 (a + 4)).2 / (3 * 2 ^ 108) := by
    rw [← add_div, le_div_iff₀ (by positivity)]; linarith
  linarith

theorem Q_lower {L : Nat} {u : ℝ} (h2 : 2 ≤ u) (hL : u ≤ 2 ^ L) :
    1.4404 - 10 / 9 * q (2 * u) ≤ Q L u := by
  obtain ⟨a, ha1, ha2⟩ := exists_nat_pow_near (by linarith : (1 : ℝ) ≤ u) (by norm_num : (1 : ℝ) < 2)
  have hpa : (0 : ℝ) < 2 ^ a := by positivity
  obtain ⟨ρ, rfl⟩ : ∃ ρ, u = 2 ^ a * ρ := ⟨u / 2 ^ a, by field_simp⟩
  have hρ1 : 1 ≤ ρ := by
    by_contra h; push Not at h; nlinarith
  have hρ2 : ρ ≤ 2 := by
    rw [pow_succ] at ha2
    exact (lt_of_mul_lt_mul_left ha2 hpa.le).le
  have haL : a ≤ L := by
    by_contra h
    push Not at h
    have h1 : (2 : ℝ) ^ (L + 1) ≤ 2 ^ a := pow_le_pow_right₀ (by norm_num) h
    have h3 : (0 : ℝ) < 2 ^ L := by positivity
    rw [pow_succ] at h1
    linarith
  obtain ⟨L', rfl⟩ := Nat.exists_eq_add_of_le haL
  rw [add_comm a L', Q_scale]
  have b3 := bounds2 hρ1 hρ2
  rw [two_sided2] at b3
  have hρ0 : 0 ≤ ρ := by linarith
  have h12 : 8 / 7 * (ρ / 2 ^ 12) ^ 3 ≤ 1 / 10 ^ 6 := by
    calc 8 / 7 * (ρ / 2 ^ 12) ^ 3 ≤ 8 / 7 * (2 / 2 ^ 12) ^ 3 := by gcongr
      _ ≤ 1 / 10 ^ 6 := by norm_num
  have k1 : Q 12 ρ - 1 / 10 ^ 6 ≤ Q L' ρ := by
    rcases le_total 12 L' with h | h
    · have := Q_close' h hρ0; linarith
    · have := Q_anti h hρ0
      have h6 : (0 : ℝ) ≤ 1 / 10 ^ 6 := by positivity
      linarith
  have hg0 := q_nonneg (2 * (2 ^ a * ρ))
  have t1 : up2 5 ρ - 10 / 9 * q (2 * (2 ^ a * ρ)) ≤ up2 a ρ := by
    rcases le_total a 5 with h | h
    · obtain ⟨d, hd⟩ := Nat.exists_eq_add_of_le h
      have := up2_le d h2
      rw [hd, up2_add]; linarith
    · obtain ⟨d, rfl⟩ := Nat.exists_eq_add_of_le h
      have := up2_nonneg d (2 ^ 5 * ρ)
      rw [up2_add]
      exact (sub_le_self _ (mul_nonneg (by norm_num) hg0)).trans (le_add_of_nonneg_right this)
  norm_num at b3 k1 ⊢
  linarith

theorem q_48 {u : ℝ} (hu : 48 ≤ u) : q u ≤ 1 / 10 ^ 6 := by
  refine (q_dec (by norm_num) hu).trans ?_
  have h := exp_neg_four (u := 4) le_rfl
  have e : exp (-48) = exp (-4) ^ 12 := by rw [← exp_nat_mul]; norm_num
  rw [q, e]
  calc (48 : ℝ) ^ 2 * exp (-4) ^ 12 ≤ 48 ^ 2 * (1 / 50) ^ 12 := by gcongr
    _ ≤ 1 / 10 ^ 6 := by norm_num

theorem fourth_le {v : ℝ} (hv : 0 ≤ v) : v ^ 4 * exp (-v) ≤ 8.68 * q (v / 2) := by
  have h1 : q (v / 2) ≤ q 2 := by
    rcases le_total (v / 2) 2 with h | h
    · exact q_inc (by positivity) h le_rfl
    · exact q_dec le_rfl h
  have h2 : q 2 ≤ 0.5425 := by
    have h := exp_one_gt_d9
    have e : exp (-2) = 1 / exp 1 ^ 2 := by
      rw [← exp_nat_mul, exp_neg, one_div]; norm_num
    rw [q, e, mul_one_div, div_le_iff₀ (by positivity)]
    nlinarith
  have e : v ^ 4 * exp (-v) = 16 * q (v / 2) * q (v / 2) := by
    have : exp (-v) = exp (-(v / 2)) * exp (-(v / 2)) := by rw [← exp_add]; congr 1; ring
    rw [q, this]; ring
  have h3 := q_nonneg (v / 2)
  rw [e]
  nlinarith

end HLL.Osc

namespace HLL
open Spec Osc Real

variable {w p n : Nat}

/-- Lower bound on the mean of `4^-M`. -/
theorem moment_quarter_ge (hn : 0 < n) :
    3 / 4 * (Q (w - p + 1) (n / 2 ^ p) - 8.68 / n * Q (w - p + 1) (n / 2 ^ p)) / (n / 2 ^ p) ^ 2 ≤
      moment w p n (1 / 4) := by
  have hn' : (0 : ℝ) < n := by exact_mod_cast hn
  have hl : (0 : ℝ) < n / 2 ^ p := by positivity
  have h4 : ∀ k : ℕ, (4 : ℝ) ^ k = (2 ^ k) ^ 2 := fun k => by
    rw [← pow_mul, mul_comm, pow_mul]; norm_num
  set l := (n : ℝ) / 2 ^ p with hldef
  set R := w - p + 1 with hR
  have hG : ∑ k ∈ Finset.range R, q (l / 2 ^ k / 2) ≤ Q R l := by
    refine le_trans ?_ (Q_anti (Nat.le_succ R) hl.le)
    have h1 : ∑ k ∈ Finset.range R, q (l / 2 ^ k / 2) = ∑ k ∈ Finset.range R, q (l / 2 ^ (k + 1)) :=
      Finset.sum_congr rfl fun k _ => by rw [pow_succ, div_div]
    have h2 : (0 : ℝ) ≤ 4 / 3 * l ^ 2 / 4 ^ (R + 1) := by positivity
    have h3 := q_nonneg (l / 2 ^ 0)
    have h4 : Q R.succ l = ∑ k ∈ Finset.range R, q (l / 2 ^ (k + 1)) + q (l / 2 ^ 0) +
        4 / 3 * l ^ 2 / 4 ^ (R + 1) := by rw [Q, Finset.sum_range_succ']
    rw [h1, h4]; linarith
  rw [div_le_iff₀ (by positivity)]
  have key : 3 / 4 * (Q R l - 8.68 / n * ∑ k ∈ Finset.range R, q (l / 2 ^ k / 2)) ≤
      moment w p n (1 / 4) * l ^ 2 := by
    rw [moment, Q, add_mul, ← hR, Finset.sum_mul, Finset.mul_sum]
    have hs : ∑ k ∈ Finset.range R, 3 / 4 * (q (l / 2 ^ k) - 8.68 / n * q (l / 2 ^ k / 2)) ≤
        ∑ k ∈ Finset.range R,
          ((1 / 4 : ℝ) ^ k - (1 / 4) ^ (k + 1)) * (1 - 1 / 2 ^ (p + k)) ^ n * l ^ 2 := by
      refine Finset.sum_le_sum fun k _ => ?_
      have h := exp_le_pow (x := 1 / 2 ^ (p + k)) (by positivity) (arg_le (p := p) k) n
      have hx : (n : ℝ) * (1 / 2 ^ (p + k)) ^ 2 = (l / 2 ^ k) ^ 2 / n := by
        rw [hldef, pow_add]; field_simp
      rw [arg_eq, hx, ← hldef] at h
      have hv : 0 ≤ l / 2 ^ k := by positivity
      have hc := fourth_le hv
      have e1 : 3 / 4 * (1 / 4 : ℝ) ^ k * (1 - 1 / 2 ^ (p + k)) ^ n * l ^ 2 =
          3 / 4 * ((l / 2 ^ k) ^ 2 * (1 - 1 / 2 ^ (p + k)) ^ n) := by
        rw [one_div, inv_pow, h4]; field_simp
      rw [quarter_pow_sub, e1]
      refine mul_le_mul_of_nonneg_left (le_trans ?_ (mul_le_mul_of_nonneg_left h (sq_nonneg _)))
        (by norm_num)
      generalize l / 2 ^ k = v at *
      have e2 : v ^ 2 * (exp (-v) * (1 - v ^ 2 / n)) = q v - (v ^ 4 * exp (-v)) / n := by
        rw [q]; ring
      rw [e2, div_mul_eq_mul_div]
      gcongr
    rw [← Finset.mul_sum, Finset.sum_sub_distrib] at hs
    have e3 : (1 / 4 : ℝ) ^ R * l ^ 2 = 3 / 4 * (4 / 3 * l ^ 2 / 4 ^ R) := by
      rw [one_div, inv_pow]; field_simp
    rw [e3]
    linarith
  refine le_trans ?_ key
  have : 8.68 / (n : ℝ) * ∑ k ∈ Finset.range R, q (l / 2 ^ k / 2) ≤ 8.68 / n * Q R l := by gcongr
  linarith

end HLL
