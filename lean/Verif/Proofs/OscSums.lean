import Verif.Proofs.Oscillation
import Mathlib.Analysis.Complex.ExponentialBounds
import Mathlib.Algebra.Order.Archimedean.Basic

/-! # One-sided sums: bounds on `∑_{i<L} g(u 2^-i)` with the tail made linear -/

namespace HLL.Osc
open Real Finset

/-- `g(u) + g(u/2) + … + g(u/2^(L-1))` plus `u/2^(L-1)`, an approximation of the rest. -/
noncomputable def G (L : Nat) (u : ℝ) : ℝ := ∑ i ∈ range L, g (u / 2 ^ i) + 2 * u / 2 ^ L

/-- `g(2u) + g(4u) + … + g(2^A u)`. -/
noncomputable def up (A : Nat) (u : ℝ) : ℝ := ∑ j ∈ range A, g (2 ^ (j + 1) * u)

/-- The same for second moments. -/
noncomputable def Q (L : Nat) (u : ℝ) : ℝ := ∑ i ∈ range L, q (u / 2 ^ i) + 4 / 3 * u ^ 2 / 4 ^ L
/-- `q(2u) + q(4u) + … + q(2^A u)`. -/
noncomputable def up2 (A : Nat) (u : ℝ) : ℝ := ∑ j ∈ range A, q (2 ^ (j + 1) * u)

theorem up_succ (A : Nat) (u : ℝ) : up (A + 1) u = g (2 * u) + up A (2 * u) := by
  rw [up, sum_range_succ', add_comm, up]
  congr 1
  · simp
  · exact sum_congr rfl fun j _ => by rw [pow_succ _ (j + 1)]; congr 1; ring

theorem up2_succ (A : Nat) (u : ℝ) : up2 (A + 1) u = q (2 * u) + up2 A (2 * u) := by
  rw [up2, sum_range_succ', add_comm, up2]
  congr 1
  · simp
  · exact sum_congr rfl fun j _ => by rw [pow_succ _ (j + 1)]; congr 1; ring

theorem up_add (A d : Nat) (u : ℝ) : up (A + d) u = up A u + up d (2 ^ A * u) := by
  rw [up, sum_range_add, up, up]
  congr 1
  exact sum_congr rfl fun j _ => by rw [add_assoc, pow_add]; congr 1; ring

theorem up2_add (A d : Nat) (u : ℝ) : up2 (A + d) u = up2 A u + up2 d (2 ^ A * u) := by
  rw [up2, sum_range_add, up2, up2]
  congr 1
  exact sum_congr rfl fun j _ => by rw [add_assoc, pow_add]; congr 1; ring

theorem G_double (L : Nat) (u : ℝ) : G (L + 1) (2 * u) = g (2 * u) + G L u := by
  rw [G, sum_range_succ', G]
  simp only [pow_zero, div_one]
  have h : ∀ i : ℕ, 2 * u / 2 ^ (i + 1) = u / 2 ^ i := fun i => by
    rw [pow_succ]; field_simp
  simp only [h]
  rw [mul_div_assoc, h]
  ring

theorem Q_double (L : Nat) (u : ℝ) : Q (L + 1) (2 * u) = q (2 * u) + Q L u := by
  rw [Q, sum_range_succ', Q]
  simp only [pow_zero, div_one]
  have h : ∀ i : ℕ, 2 * u / 2 ^ (i + 1) = u / 2 ^ i := fun i => by
    rw [pow_succ]; field_simp
  simp only [h]
  rw [pow_succ 4 L]
  have : 4 / 3 * (2 * u) ^ 2 / (4 ^ L * 4) = 4 / 3 * u ^ 2 / 4 ^ L := by
    field_simp; ring
  rw [this]
  ring

theorem G_scale : ∀ (a L : Nat) (ρ : ℝ), G (L + a) (2 ^ a * ρ) = up a ρ + G L ρ
  | 0, L, ρ => by simp [up]
  | a + 1, L, ρ => by
    have h : (2 : ℝ) ^ (a + 1) * ρ = 2 ^ a * (2 * ρ) := by rw [pow_succ]; ring
    rw [h, show L + (a + 1) = (L + 1) + a by omega, G_scale a (L + 1) (2 * ρ), up_succ, G_double]
    ring

theorem Q_scale : ∀ (a L : Nat) (ρ : ℝ), Q (L + a) (2 ^ a * ρ) = up2 a ρ + Q L ρ
  | 0, L, ρ => by simp [up2]
  | a + 1, L, ρ => by
    have h : (2 : ℝ) ^ (a + 1) * ρ = 2 ^ a * (2 * ρ) := by rw [pow_succ]; ring
    rw [h, show L + (a + 1) = (L + 1) + a by omega, Q_scale a (L + 1) (2 * ρ), up2_succ, Q_double]
    ring

theorem G_step (L : Nat) (u : ℝ) : G (L + 1) u = G L u - (u / 2 ^ L - g (u / 2 ^ L)) := by
  rw [G, sum_range_succ, G, pow_succ]
  field_simp; ring

theorem Q_step (L : Nat) (u : ℝ) : Q (L + 1) u = Q L u - ((u / 2 ^ L) ^ 2 - q (u / 2 ^ L)) := by
  have h4 : (4 : ℝ) ^ L = (2 ^ L) ^ 2 := by rw [← pow_mul, mul_comm, pow_mul]; norm_num
  rw [Q, sum_range_succ, Q, pow_succ 4 L, h4]
  field_simp; ring

theorem G_anti {L L' : Nat} (h : L ≤ L') {u : ℝ} (hu : 0 ≤ u) : G L' u ≤ G L u := by
  induction h with
  | refl => exact le_rfl
  | @step m _ ih =>
    rw [G_step]
    have := g_le (u := u / 2 ^ m) (by positivity)
    exact le_trans (by linarith) ih

theorem Q_anti {L L' : Nat} (h : L ≤ L') {u : ℝ} (hu : 0 ≤ u) : Q L' u ≤ Q L u := by
  induction h with
  | refl => exact le_rfl
  | @step m _ ih =>
    rw [Q_step]
    have := q_le (u / 2 ^ m) (by positivity)
    exact le_trans (by linarith) ih

theorem G_close (L d : Nat) {u : ℝ} (hu : 0 ≤ u) :
    G L u ≤ G (L + d) u + 4 / 3 * (u / 2 ^ L) ^ 2 * (1 - 1 / 4 ^ d) := by
  induction d with
  | zero => simp
  | succ d ih =>
    have hv : 0 ≤ u / 2 ^ (L + d) := by positivity
    have h1 := g_ge hv
    have h2 : (u / 2 ^ (L + d)) ^ 2 = (u / 2 ^ L) ^ 2 * (1 / 4 ^ d) := by
      have h4 : (4 : ℝ) ^ d = (2 ^ d) ^ 2 := by rw [← pow_mul, mul_comm, pow_mul]; norm_num
      rw [h4, pow_add]; field_simp
    rw [← add_assoc, G_step, pow_succ 4 d]
    have h3 : (1 : ℝ) / (4 ^ d * 4) = 1 / 4 ^ d / 4 := by field_simp
    rw [h3]
    linarith

theorem Q_close (L d : Nat) {u : ℝ} (hu : 0 ≤ u) :
    Q L u ≤ Q (L + d) u + 8 / 7 * (u / 2 ^ L) ^ 3 * (1 - 1 / 8 ^ d) := by
  induction d with
  | zero => simp
  | succ d ih =>
    have hv : 0 ≤ u / 2 ^ (L + d) := by positivity
    have h1 := q_ge (u / 2 ^ (L + d))
    have h2 : (u / 2 ^ (L + d)) ^ 3 = (u / 2 ^ L) ^ 3 * (1 / 8 ^ d) := by
      have h4 : (8 : ℝ) ^ d = (2 ^ d) ^ 3 := by rw [← pow_mul, mul_comm, pow_mul]; norm_num
      rw [h4, pow_add]; field_simp
    rw [← add_assoc, Q_step, pow_succ 8 d]
    have h3 : (1 : ℝ) / (8 ^ d * 8) = 1 / 8 ^ d / 8 := by field_simp
    rw [h3]
    linarith

theorem G_close' {L L' : Nat} (h : L ≤ L') {u : ℝ} (hu : 0 ≤ u) :
    G L u ≤ G L' u + 4 / 3 * (u / 2 ^ L) ^ 2 := by
  obtain ⟨d, rfl⟩ := Nat.exists_eq_add_of_le h
  refine (G_close L d hu).trans (add_le_add le_rfl ?_)
  refine mul_le_of_le_one_right (by positivity) ?_
  have : (0 : ℝ) ≤ 1 / 4 ^ d := by positivity
  linarith

theorem Q_close' {L L' : Nat} (h : L ≤ L') {u : ℝ} (hu : 0 ≤ u) :
    Q L u ≤ Q L' u + 8 / 7 * (u / 2 ^ L) ^ 3 := by
  obtain ⟨d, rfl⟩ := Nat.exists_eq_add_of_le h
  refine (Q_close L d hu).trans (add_le_add le_rfl ?_)
  refine mul_le_of_le_one_right (by positivity) ?_
  have : (0 : ℝ) ≤ 1 / 8 ^ d := by positivity
  linarith

theorem exp_four : (50 : ℝ) ≤ exp 4 := by
  have h := exp_one_gt_d9
  have e : exp 4 = exp 1 ^ 4 := by rw [← exp_nat_mul]; norm_num
  rw [e]
  calc (50 : ℝ) ≤ 2.7 ^ 4 := by norm_num
    _ ≤ exp 1 ^ 4 := by gcongr; linarith

theorem exp_neg_four {u : ℝ} (hu : 4 ≤ u) : exp (-u) ≤ 1 / 50 := by
  have h1 : exp 4 ≤ exp u := exp_le_exp.2 hu
  rw [exp_neg, ← one_div]
  exact one_div_le_one_div_of_le (by norm_num) (exp_four.trans h1)

theorem g_two {u : ℝ} (hu : 4 ≤ u) : g (2 * u) ≤ g u / 25 := by
  have e : g (2 * u) = g u * (2 * exp (-u)) := by
    rw [g, g, show -(2 * u) = -u + -u by ring, exp_add]; ring
  have h := exp_neg_four hu
  have h0 := g_nonneg (u := u) (by linarith)
  rw [e]; nlinarith

theorem q_two {u : ℝ} (hu : 4 ≤ u) : q (2 * u) ≤ q u / 10 := by
  have e : q (2 * u) = q u * (4 * exp (-u)) := by
    rw [q, q, show -(2 * u) = -u + -u by ring, exp_add]; ring
  have h := exp_neg_four hu
  have h0 := q_nonneg u
  rw [e]; nlinarith

theorem up_le : ∀ (d : Nat) {u : ℝ}, 2 ≤ u → up d u ≤ 25 / 24 * g (2 * u)
  | 0, u, hu => by
    have := g_nonneg (u := 2 * u) (by linarith)
    simp only [up, range_zero, sum_empty]; linarith
  | d + 1, u, hu => by
    have h1 := up_le d (u := 2 * u) (by linarith)
    have h2 := g_two (u := 2 * u) (by linarith)
    rw [up_succ]; linarith

theorem up2_le : ∀ (d : Nat) {u : ℝ}, 2 ≤ u → up2 d u ≤ 10 / 9 * q (2 * u)
  | 0, u, hu => by
    have := q_nonneg (2 * u)
    simp only [up2, range_zero, sum_empty]; linarith
  | d + 1, u, hu => by
    have h1 := up2_le d (u := 2 * u) (by linarith)
    have h2 := q_two (u := 2 * u) (by linarith)
    rw [up2_succ]; linarith

theorem up_nonneg (d : Nat) {u : ℝ} (hu : 0 ≤ u) : 0 ≤ up d u :=
  sum_nonneg fun _ _ => g_nonneg (by positivity)

theorem up2_nonneg (d : Nat) (u : ℝ) : 0 ≤ up2 d u := sum_nonneg fun _ _ => q_nonneg _

theorem exp_64 : exp (-64) ≤ 1 / 10 ^ 25 := by
  have h := exp_neg_four (u := 4) le_rfl
  have e : exp (-64) = exp (-4) ^ 16 := by rw [← exp_nat_mul]; norm_num
  rw [e]
  calc exp (-4) ^ 16 ≤ (1 / 50) ^ 16 := by gcongr
    _ ≤ 1 / 10 ^ 25 := by norm_num

theorem two_sided {ρ : ℝ} : inc ρ + dec ρ = up 5 ρ + G 12 ρ := by
  simp only [inc, dec, up, G, sum_range_succ, range_zero, sum_empty, pow_zero, div_one]
  have h : ∀ a b : ℝ, a = b → g a = g b := fun a b h => by rw [h]
  rw [h (1 * (ρ / 2 ^ 11)) (ρ / 2 ^ 11) (by ring), h (2 ^ 1 * (ρ / 2 ^ 11)) (ρ / 2 ^ 10) (by ring),
    h (2 ^ 2 * (ρ / 2 ^ 11)) (ρ / 2 ^ 9) (by ring), h (2 ^ 3 * (ρ / 2 ^ 11)) (ρ / 2 ^ 8) (by ring),
    h (2 ^ 4 * (ρ / 2 ^ 11)) (ρ / 2 ^ 7) (by ring), h (2 ^ 5 * (ρ / 2 ^ 11)) (ρ / 2 ^ 6) (by ring),
    h (2 ^ 6 * (ρ / 2 ^ 11)) (ρ / 2 ^ 5) (by ring), h (2 ^ 7 * (ρ / 2 ^ 11)) (ρ / 2 ^ 4) (by ring),
    h (2 ^ 8 * (ρ / 2 ^ 11)) (ρ / 2 ^ 3) (by ring), h (2 ^ 9 * (ρ / 2 ^ 11)) (ρ / 2 ^ 2) (by ring),
    h (2 ^ 10 * (ρ / 2 ^ 11)) (ρ / 2 ^ 1) (by ring), one_mul]
  ring

theorem two_sided2 {ρ : ℝ} : inc2 ρ + dec2 ρ = up2 5 ρ + Q 12 ρ := by
  simp only [inc2, dec2, up2, Q, sum_range_succ, range_zero, sum_empty, pow_zero, div_one]
  have h : ∀ a b : ℝ, a = b → q a = q b := fun a b h => by rw [h]
  rw [h (1 * (ρ / 2 ^ 11)) (ρ / 2 ^ 11) (by ring), h (2 ^ 1 * (ρ / 2 ^ 11)) (ρ / 2 ^ 10) (by ring),
    h (2 ^ 2 * (ρ / 2 ^ 11)) (ρ / 2 ^ 9) (by ring), h (2 ^ 3 * (ρ / 2 ^ 11)) (ρ / 2 ^ 8) (by ring),
    h (2 ^ 4 * (ρ / 2 ^ 11)) (ρ / 2 ^ 7) (by ring), h (2 ^ 5 * (ρ / 2 ^ 11)) (ρ / 2 ^ 6) (by ring),
    h (2 ^ 6 * (ρ / 2 ^ 11)) (ρ / 2 ^ 5) (by ring), h (2 ^ 7 * (ρ / 2 ^ 11)) (ρ / 2 ^ 4) (by ring),
    h (2 ^ 8 * (ρ / 2 ^ 11)) (ρ / 2 ^ 3) (by ring), h (2 ^ 9 * (ρ / 2 ^ 11)) (ρ / 2 ^ 2) (by ring),
    h (2 ^ 10 * (ρ / 2 ^ 11)) (ρ / 2 ^ 1) (by ring), h (2 ^ 11 * (ρ / 2 ^ 11)) ρ (by ring),
    h (1 * (2 * ρ)) (2 ^ (0 + 1) * ρ) (by ring),
    h (2 ^ 1 * (2 * ρ)) (2 ^ (1 + 1) * ρ) (by ring), h (2 ^ 2 * (2 * ρ)) (2 ^ (2 + 1) * ρ) (by ring),
    h (2 ^ 3 * (2 * ρ)) (2 ^ (3 + 1) * ρ) (by ring), h (2 ^ 4 * (2 * ρ)) (2 ^ (4 + 1) * ρ) (by ring)]
  ring

/-- **Bounds on the one-sided sums.** -/
theorem G_bounds {L : Nat} {u : ℝ} (h2 : 2 ≤ u) (hL : u ≤ 2 ^ L) :
    1.4423 - 25 / 24 * g (2 * u) ≤ G L u ∧ G L u ≤ 1.4431 + 4 / 3 * (u / 2 ^ L) ^ 2 ∧
      Q L u ≤ 1.4434 + 8 / 7 * (u / 2 ^ L) ^ 3 := by
  obtain ⟨a, ha1, ha2⟩ := exists_nat_pow_near (by linarith : (1 : ℝ) ≤ u) (by norm_num : (1 : ℝ) < 2)
  have hpa : (0 : ℝ) < 2 ^ a := by positivity
  obtain ⟨ρ, rfl⟩ : ∃ ρ, u = 2 ^ a * ρ := ⟨u / 2 ^ a, by field_simp⟩
  have hρ1 : 1 ≤ ρ := by
    by_contra h; push Not at h; nlinarith
  have hρ2 : ρ ≤ 2 := by
    rw [pow_succ] at ha2
    exact (lt_of_mul_lt_mul_left ha2 hpa.le).le
  have haL : a ≤ L := by
    by_contra h
    push Not at h
    have h1 : (2 : ℝ) ^ (L + 1) ≤ 2 ^ a := pow_le_pow_right₀ (by norm_num) h
    have h3 : (0 : ℝ) < 2 ^ L := by positivity
    rw [pow_succ] at h1
    linarith
  obtain ⟨L', rfl⟩ := Nat.exists_eq_add_of_le haL
  have hv : 2 ^ a * ρ / 2 ^ (a + L') = ρ / 2 ^ L' := by
    rw [pow_add]; field_simp
  rw [hv, add_comm a L', G_scale, Q_scale]
  obtain ⟨b1, b2, b3⟩ := bounds hρ1 hρ2
  rw [two_sided] at b1 b2
  rw [two_sided2] at b3
  have hsq : (0 : ℝ) ≤ 4 / 3 * (ρ / 2 ^ L') ^ 2 := by positivity
  have hcu : (0 : ℝ) ≤ 8 / 7 * (ρ / 2 ^ L') ^ 3 := by positivity
  have hρ0 : 0 ≤ ρ := by linarith
  have h12 : 4 / 3 * (ρ / 2 ^ 12) ^ 2 ≤ 1 / 10 ^ 6 := by
    calc 4 / 3 * (ρ / 2 ^ 12) ^ 2 ≤ 4 / 3 * (2 / 2 ^ 12) ^ 2 := by gcongr
      _ ≤ 1 / 10 ^ 6 := by norm_num
  -- the lower end of the sum
  have k1 : G 12 ρ - 1 / 10 ^ 6 ≤ G L' ρ := by
    rcases le_total 12 L' with h | h
    · have := G_close' h hρ0; linarith
    · have := G_anti h hρ0
      have h6 : (0 : ℝ) ≤ 1 / 10 ^ 6 := by positivity
      linarith
  have k2 : G L' ρ ≤ G 12 ρ + 4 / 3 * (ρ / 2 ^ L') ^ 2 := by
    rcases le_total 12 L' with h | h
    · have := G_anti h hρ0; linarith
    · exact G_close' h hρ0
  have k3 : Q L' ρ ≤ Q 12 ρ + 8 / 7 * (ρ / 2 ^ L') ^ 3 := by
    rcases le_total 12 L' with h | h
    · have := Q_anti h hρ0; linarith
    · exact Q_close' h hρ0
  -- the upper end
  have hg0 := g_nonneg (u := 2 * (2 ^ a * ρ)) (by linarith)
  have t1 : up 5 ρ - 25 / 24 * g (2 * (2 ^ a * ρ)) ≤ up a ρ := by
    rcases le_total a 5 with h | h
    · obtain ⟨d, hd⟩ := Nat.exists_eq_add_of_le h
      have := up_le d h2
      rw [hd, up_add]; linarith
    · obtain ⟨d, rfl⟩ := Nat.exists_eq_add_of_le h
      have := up_nonneg d (u := 2 ^ 5 * ρ) (by positivity)
      rw [up_add]
      exact (sub_le_self _ (mul_nonneg (by norm_num) hg0)).trans (le_add_of_nonneg_right this)
  have e64 := exp_64
  have h64 : (64 : ℝ) ≤ 2 * (2 ^ 5 * ρ) := by linarith
  have t2 : up a ρ ≤ up 5 ρ + 1 / 10 ^ 6 := by
    rcases le_total a 5 with h | h
    · obtain ⟨d, hd⟩ := Nat.exists_eq_add_of_le h
      have := up_nonneg d (u := 2 ^ a * ρ) (by linarith)
      have h6 : (0 : ℝ) ≤ 1 / 10 ^ 6 := by positivity
      rw [hd, up_add]; linarith
    · obtain ⟨d, rfl⟩ := Nat.exists_eq_add_of_le h
      have h1 := up_le d (u := 2 ^ 5 * ρ) (by linarith)
      have h3 := g_dec (x := 64) (by norm_num) h64
      rw [up_add]
      have h4 : g 64 ≤ 64 * (1 / 10 ^ 25) := by rw [g]; gcongr
      refine add_le_add le_rfl (h1.trans ?_)
      calc 25 / 24 * g (2 * (2 ^ 5 * ρ)) ≤ 25 / 24 * (64 * (1 / 10 ^ 25)) := by gcongr; exact h3.trans h4
        _ ≤ 1 / 10 ^ 6 := by norm_num
  have t3 : up2 a ρ ≤ up2 5 ρ + 1 / 10 ^ 6 := by
    rcases le_total a 5 with h | h
    · obtain ⟨d, hd⟩ := Nat.exists_eq_add_of_le h
      have := up2_nonneg d (2 ^ a * ρ)
      have h6 : (0 : ℝ) ≤ 1 / 10 ^ 6 := by positivity
      rw [hd, up2_add]; linarith
    · obtain ⟨d, rfl⟩ := Nat.exists_eq_add_of_le h
      have h1 := up2_le d (u := 2 ^ 5 * ρ) (by linarith)
      have h3 := q_dec (x := 64) (by norm_num) h64
      rw [up2_add]
      have h4 : q 64 ≤ 64 ^ 2 * (1 / 10 ^ 25) := by rw [q]; gcongr
      refine add_le_add le_rfl (h1.trans ?_)
      calc 10 / 9 * q (2 * (2 ^ 5 * ρ)) ≤ 10 / 9 * (64 ^ 2 * (1 / 10 ^ 25)) := by
            gcongr; exact h3.trans h4
        _ ≤ 1 / 10 ^ 6 := by norm_num
  norm_num at b1 b2 b3 k1 t2 t3 ⊢
  refine ⟨?_, ?_, ?_⟩ <;> linarith

end HLL.Osc
