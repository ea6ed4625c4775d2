import Verif.Proofs.NegDep
import Verif.Props.RawAccuracy
import Verif.Proofs.WholePF

/-!
# Exponential bounds on the deviation of the harmonic sum

The registers are negatively dependent, so the exponential moments of their harmonic sum are at most
those of a sum of independent terms.
-/

namespace HLL
open Spec F64 Exps Osc Finset

/-! ## The exponential function -/

theorem exp_neg_quad {x : ℝ} (hx : 0 ≤ x) : Real.exp (-x) ≤ 1 - x + x ^ 2 / 2 := by
  have h : MonotoneOn (fun t : ℝ => 1 - t + t ^ 2 / 2 - Real.exp (-t)) (Set.Ici 0) := by
    have hd : ∀ t : ℝ, HasDerivAt (fun t : ℝ => 1 - t + t ^ 2 / 2 - Real.exp (-t))
        (-1 + t + Real.exp (-t)) t := by
      intro t
      have := (((hasDerivAt_const t (1 : ℝ)).sub (hasDerivAt_id t)).add
        (((hasDerivAt_id t).pow 2).div_const 2)).sub ((hasDerivAt_id t).neg.exp)
      refine this.congr_deriv ?_
      simp
    refine monotoneOn_of_deriv_nonneg (convex_Ici 0) (fun t _ => (hd t).continuousAt.continuousWithinAt)
      (fun t _ => (hd t).differentiableAt.differentiableWithinAt) fun t _ => ?_
    rw [(hd t).deriv]
    have := Real.add_one_le_exp (-t)
    linarith
  have := h (Set.mem_Ici.2 le_rfl) (Set.mem_Ici.2 hx) hx
  simp at this
  linarith

theorem exp_cubic {x : ℝ} (hx : 0 ≤ x) :
    Real.exp x ≤ 1 + x + x ^ 2 / 2 + x ^ 3 / 6 * Real.exp x := by
  have h : MonotoneOn (fun t : ℝ => Real.exp (-t) * (1 + t + t ^ 2 / 2) + t ^ 3 / 6) (Set.Ici 0) := by
    have hd : ∀ t : ℝ, HasDerivAt (fun t : ℝ => Real.exp (-t) * (1 + t + t ^ 2 / 2) + t ^ 3 / 6)
        (t ^ 2 / 2 * (1 - Real.exp (-t))) t := by
      intro t
      have := (((hasDerivAt_id t).neg.exp).mul (((hasDerivAt_const t (1 : ℝ)).add (hasDerivAt_id t)).add
        (((hasDerivAt_id t).pow 2).div_const 2))).add (((hasDerivAt_id t).pow 3).div_const 6)
      refine this.congr_deriv ?_
      simp
      ring
    refine monotoneOn_of_deriv_nonneg (convex_Ici 0) (fun t _ => (hd t).continuousAt.continuousWithinAt)
      (fun t _ => (hd t).differentiableAt.differentiableWithinAt) fun t ht => ?_
    rw [(hd t).deriv]
    rw [interior_Ici, Set.mem_Ioi] at ht
    have : Real.exp (-t) ≤ 1 := Real.exp_le_one_iff.2 (by linarith)
    have := sq_nonneg t
    nlinarith
  have := h (Set.mem_Ici.2 le_rfl) (Set.mem_Ici.2 hx) hx
  simp only [neg_zero, Real.exp_zero] at this
  have h2 := mul_le_mul_of_nonneg_right this (Real.exp_pos x).le
  have e : (Real.exp (-x) * (1 + x + x ^ 2 / 2) + x ^ 3 / 6) * Real.exp x =
      (Real.exp (-x) * Real.exp x) * (1 + x + x ^ 2 / 2) + x ^ 3 / 6 * Real.exp x := by ring
  rw [e, ← Real.exp_add, neg_add_cancel, Real.exp_zero] at h2
  norm_num at h2
  linarith

theorem exp_quad {x : ℝ} (hx : 0 ≤ x) : Real.exp x ≤ 1 + x + x ^ 2 / 2 * Real.exp x := by
  have h : MonotoneOn (fun t : ℝ => Real.exp (-t) * (1 + t) + t ^ 2 / 2) (Set.Ici 0) := by
    have hd : ∀ t : ℝ, HasDerivAt (fun t : ℝ => Real.exp (-t) * (1 + t) + t ^ 2 / 2)
        (t * (1 - Real.exp (-t))) t := by
      intro t
      have := (((hasDerivAt_id t).neg.exp).mul ((hasDerivAt_const t (1 : ℝ)).add (hasDerivAt_id t))).add
        (((hasDerivAt_id t).pow 2).div_const 2)
      refine this.congr_deriv ?_
      simp
      ring
    refine monotoneOn_of_deriv_nonneg (convex_Ici 0) (fun t _ => (hd t).continuousAt.continuousWithinAt)
      (fun t _ => (hd t).differentiableAt.differentiableWithinAt) fun t ht => ?_
    rw [(hd t).deriv]
    rw [interior_Ici, Set.mem_Ioi] at ht
    have : Real.exp (-t) ≤ 1 := Real.exp_le_one_iff.2 (by linarith)
    nlinarith
  have := h (Set.mem_Ici.2 le_rfl) (Set.mem_Ici.2 hx) hx
  simp only [neg_zero, Real.exp_zero] at this
  have h2 := mul_le_mul_of_nonneg_right this (Real.exp_pos x).le
  have e : (Real.exp (-x) * (1 + x) + x ^ 2 / 2) * Real.exp x =
      (Real.exp (-x) * Real.exp x) * (1 + x) + x ^ 2 / 2 * Real.exp x := by ring
  rw [e, ← Real.exp_add, neg_add_cancel, Real.exp_zero] at h2
  norm_num at h2
  linarith

/-- For an argument that is at most `κ`. -/
theorem exp_le_quad {y κ : ℝ} (hκ : 0 ≤ κ) (hy : y ≤ κ) :
    Real.exp y ≤ 1 + y + y ^ 2 / 2 * Real.exp κ := by
  rcases le_total 0 y with h | h
  · refine (exp_quad h).trans ?_
    gcongr
  · have h1 := exp_neg_quad (neg_nonneg.2 h)
    rw [neg_neg] at h1
    have h2 := Real.one_le_exp hκ
    have h3 := mul_le_mul_of_nonneg_left h2 (by positivity : 0 ≤ y ^ 2 / 2)
    nlinarith

/-- For a difference of a nonnegative and a nonnegative number. -/
theorem exp_sub_le {x a : ℝ} (hx : 0 ≤ x) (ha : 0 ≤ a) :
    Real.exp (x - a) ≤ 1 + (x - a) + (x - a) ^ 2 / 2 + x ^ 3 * Real.exp x / 6 := by
  rcases le_total 0 (x - a) with h | h
  · refine (exp_cubic h).trans ?_
    have h1 : (x - a) ^ 3 * Real.exp (x - a) ≤ x ^ 3 * Real.exp x := by
      refine mul_le_mul (pow_le_pow_left₀ h (by linarith) 3) (Real.exp_le_exp.2 (by linarith))
        (Real.exp_pos _).le (by positivity)
    linarith
  · have h1 := exp_neg_quad (neg_nonneg.2 h)
    rw [neg_neg] at h1
    have h2 : 0 ≤ x ^ 3 * Real.exp x := by positivity
    nlinarith

/-! ## Exponential moments -/

/-- Markov's inequality for `exp`. -/
theorem markov_exp {n : Nat} (f : (Fin n → Fin (2 ^ 64)) → ℝ) (t : ℝ) :
    fraction (fun h => t ≤ f h) ≤ mean (fun h => Real.exp (f h)) * Real.exp (-t) := by
  classical
  rw [fraction_eq_mean, mul_comm, ← mean_mul]
  refine mean_mono fun h => ?_
  rw [← Real.exp_add]
  split
  · rename_i ht
    exact Real.one_le_exp (by linarith)
  · exact (Real.exp_pos _).le

variable {w p n : Nat}

/-- The sum over all registers of an increasing or a decreasing function. -/
theorem mgf_sum {ψ : Nat → ℝ} (hψ : Monotone ψ ∨ Antitone ψ) {b : ℝ}
    (hb : ∀ j < 2 ^ p, mean (fun h : Fin n → Fin (2 ^ 64) => Real.exp (ψ (reg w p (hashSet w h) j))) ≤
      Real.exp b) :
    mean (fun h : Fin n → Fin (2 ^ 64) =>
      Real.exp (∑ j ∈ range (2 ^ p), ψ (reg w p (hashSet w h) j))) ≤ Real.exp (2 ^ p * b) := by
  simp only [Real.exp_sum]
  have h1 : mean (fun h : Fin n → Fin (2 ^ 64) =>
      ∏ j ∈ range (2 ^ p), Real.exp (ψ (reg w p (hashSet w h) j))) ≤
      ∏ j ∈ range (2 ^ p), mean (fun h : Fin n → Fin (2 ^ 64) =>
        Real.exp (ψ (reg w p (hashSet w h) j))) := by
    rcases hψ with hψ | hψ
    · exact mean_prod_le_mono (φ := fun k => Real.exp (ψ k)) (fun k => (Real.exp_pos _).le)
        (fun a b hab => Real.exp_le_exp.2 (hψ hab)) _
    · exact mean_prod_le_anti (φ := fun k => Real.exp (ψ k)) (fun k => (Real.exp_pos _).le)
        (fun a b hab => Real.exp_le_exp.2 (hψ hab)) _
  refine h1.trans ((Finset.prod_le_prod (fun j _ => ?_) fun j hj => hb j (mem_range.1 hj)).trans
    (le_of_eq ?_))
  · have := mean_mono (n := n) fun h => (Real.exp_pos (ψ (reg w p (hashSet w h) j))).le
    rwa [mean_const] at this
  · rw [prod_const, card_range, ← Real.exp_nat_mul]
    push_cast
    rfl

theorem tail_sum {ψ : Nat → ℝ} (hψ : Monotone ψ ∨ Antitone ψ) {b : ℝ}
    (hb : ∀ j < 2 ^ p, mean (fun h : Fin n → Fin (2 ^ 64) => Real.exp (ψ (reg w p (hashSet w h) j))) ≤
      Real.exp b) (t : ℝ) :
    fraction (fun h : Fin n → Fin (2 ^ 64) => t ≤ ∑ j ∈ range (2 ^ p), ψ (reg w p (hashSet w h) j)) ≤
      Real.exp (2 ^ p * b - t) := by
  refine (markov_exp _ t).trans ?_
  rw [sub_eq_add_neg, Real.exp_add]
  exact mul_le_mul_of_nonneg_right (mgf_sum hψ hb) (Real.exp_pos _).le

/-- The mean of a quadratic polynomial in `2^-M - μ`. -/
theorem mean_centred {j : Nat} (hp : p ≤ w) (hw : w ≤ 64) (hj : j < 2 ^ p) (a b : ℝ) :
    mean (fun h : Fin n → Fin (2 ^ 64) =>
      1 + a * ((1 / 2) ^ reg w p (hashSet w h) j - moment w p n (1 / 2)) +
        b * ((1 / 2) ^ reg w p (hashSet w h) j - moment w p n (1 / 2)) ^ 2) =
      1 + b * (relVar w p n * moment w p n (1 / 2) ^ 2) := by
  have he := moment_half_pos (w := w) (p := p) (n := n)
  have m1 := mean_pow (w := w) (p := p) (j := j) n hp hw hj (1 / 2)
  have m2 := mean_pow (w := w) (p := p) (j := j) n hp hw hj (1 / 4)
  have e : (fun h : Fin n → Fin (2 ^ 64) =>
      1 + a * ((1 / 2) ^ reg w p (hashSet w h) j - moment w p n (1 / 2)) +
        b * ((1 / 2) ^ reg w p (hashSet w h) j - moment w p n (1 / 2)) ^ 2) = fun h =>
      (1 - a * moment w p n (1 / 2) + b * moment w p n (1 / 2) ^ 2) +
      ((a - 2 * b * moment w p n (1 / 2)) * (1 / 2) ^ reg w p (hashSet w h) j +
        b * (1 / 4) ^ reg w p (hashSet w h) j) := by
    funext h
    have : ((1 / 4 : ℝ)) ^ reg w p (hashSet w h) j = ((1 / 2) ^ reg w p (hashSet w h) j) ^ 2 := by
      rw [← pow_mul, mul_comm, pow_mul]; norm_num
    rw [this]
    ring
  rw [e, mean_add, mean_const, mean_add, mean_mul, mean_mul, m1, m2]
  unfold relVar
  field_simp
  ring

/-- The lower tail of one register. -/
theorem mgf_lower {j : Nat} (hp : p ≤ w) (hw : w ≤ 64) (hj : j < 2 ^ p) {κ : ℝ} (hκ : 0 ≤ κ) :
    mean (fun h : Fin n → Fin (2 ^ 64) => Real.exp
      (-(κ / moment w p n (1 / 2) * ((1 / 2) ^ reg w p (hashSet w h) j - moment w p n (1 / 2))))) ≤
      Real.exp (κ ^ 2 * relVar w p n / 2 * Real.exp κ) := by
  have he := moment_half_pos (w := w) (p := p) (n := n)
  set μ := moment w p n (1 / 2) with hμ
  refine (mean_mono (g := fun h : Fin n → Fin (2 ^ 64) =>
      1 + (-(κ / μ)) * ((1 / 2) ^ reg w p (hashSet w h) j - μ) +
        ((κ / μ) ^ 2 / 2 * Real.exp κ) * ((1 / 2) ^ reg w p (hashSet w h) j - μ) ^ 2) fun h => ?_).trans ?_
  · refine (exp_le_quad hκ ?_).trans (le_of_eq (by ring))
    have h1 : 0 ≤ κ / μ * (1 / 2) ^ reg w p (hashSet w h) j := by positivity
    have h2 : κ / μ * μ = κ := by field_simp
    nlinarith
  · rw [hμ, mean_centred hp hw hj, ← hμ]
    have e : (κ / μ) ^ 2 / 2 * Real.exp κ * (relVar w p n * μ ^ 2) =
        κ ^ 2 * relVar w p n / 2 * Real.exp κ := by field_simp
    rw [e, add_comm]
    exact Real.add_one_le_exp _

/-- The upper tail of one register, given a bound on the third moment. -/
theorem mgf_upper {j : Nat} (hp : p ≤ w) (hw : w ≤ 64) (hj : j < 2 ^ p) {κ c : ℝ} (hκ : 0 ≤ κ)
    (h3 : mean (fun h : Fin n → Fin (2 ^ 64) => ((1 / 2 : ℝ) ^ reg w p (hashSet w h) j) ^ 3 *
      Real.exp (κ / moment w p n (1 / 2) * (1 / 2) ^ reg w p (hashSet w h) j)) ≤
      c * moment w p n (1 / 2) ^ 3) :
    mean (fun h : Fin n → Fin (2 ^ 64) => Real.exp
      (κ / moment w p n (1 / 2) * ((1 / 2) ^ reg w p (hashSet w h) j - moment w p n (1 / 2)))) ≤
      Real.exp (κ ^ 2 * relVar w p n / 2 + c * κ ^ 3 / 6) := by
  have he := moment_half_pos (w := w) (p := p) (n := n)
  set μ := moment w p n (1 / 2) with hμ
  refine (mean_mono (g := fun h : Fin n → Fin (2 ^ 64) =>
      (1 + κ / μ * ((1 / 2) ^ reg w p (hashSet w h) j - μ) +
        ((κ / μ) ^ 2 / 2) * ((1 / 2) ^ reg w p (hashSet w h) j - μ) ^ 2) +
      (κ / μ) ^ 3 / 6 * (((1 / 2 : ℝ) ^ reg w p (hashSet w h) j) ^ 3 *
      Real.exp (κ / μ * (1 / 2) ^ reg w p (hashSet w h) j))) fun h => ?_).trans ?_
  · have h1 : 0 ≤ κ / μ * (1 / 2) ^ reg w p (hashSet w h) j := by positivity
    have h2 : κ / μ * μ = κ := by field_simp
    have h4 := exp_sub_le h1 hκ
    have e : κ / μ * ((1 / 2) ^ reg w p (hashSet w h) j - μ) =
        κ / μ * (1 / 2) ^ reg w p (hashSet w h) j - κ := by rw [mul_sub, h2]
    rw [e]
    refine h4.trans (le_of_eq ?_)
    rw [← e]
    ring
  · rw [mean_add, mean_mul]
    have h5 := mul_le_mul_of_nonneg_left h3 (by positivity : 0 ≤ (κ / μ) ^ 3 / 6)
    rw [show (1 / 2 : ℝ) = 1 / 2 from rfl]
    have h6 := mean_centred (n := n) hp hw hj (κ / μ) ((κ / μ) ^ 2 / 2)
    rw [← hμ] at h6
    rw [h6]
    have e1 : (κ / μ) ^ 2 / 2 * (relVar w p n * μ ^ 2) = κ ^ 2 * relVar w p n / 2 := by field_simp
    have e2 : (κ / μ) ^ 3 / 6 * (c * μ ^ 3) = c * κ ^ 3 / 6 := by field_simp
    rw [e1]
    rw [e2] at h5
    have := Real.add_one_le_exp (κ ^ 2 * relVar w p n / 2 + c * κ ^ 3 / 6)
    linarith

/-! ## The third moment -/

/-- `u^3 e^-u` against `q`. -/
theorem cube_le_q {u : ℝ} : u ^ 3 * Real.exp (-u) ≤ 2.4834 * q (2 * u / 3) := by
  have h1 : u / 3 * Real.exp (-(u / 3)) ≤ 0.367880 := by
    have := Real.add_one_le_exp (u / 3 - 1)
    have h2 : Real.exp (u / 3 - 1) = Real.exp (u / 3) * Real.exp (-1) := by rw [← Real.exp_add]; ring_nf
    have h3 : Real.exp (-1) ≤ 0.367880 := by
      have := Real.exp_neg_one_lt_d9
      norm_num at this ⊢; linarith
    have h4 : u / 3 ≤ Real.exp (u / 3) * 0.367880 := by
      calc u / 3 = u / 3 - 1 + 1 := by ring
        _ ≤ _ := this
        _ = _ := h2
        _ ≤ _ := by gcongr
    calc u / 3 * Real.exp (-(u / 3)) ≤ Real.exp (u / 3) * 0.367880 * Real.exp (-(u / 3)) := by gcongr
      _ = 0.367880 * (Real.exp (u / 3) * Real.exp (-(u / 3))) := by ring
      _ = 0.367880 := by rw [← Real.exp_add, add_neg_cancel, Real.exp_zero, mul_one]
  have e : u ^ 3 * Real.exp (-u) = 27 / 4 * (u / 3 * Real.exp (-(u / 3))) * q (2 * u / 3) := by
    have : Real.exp (-u) = Real.exp (-(u / 3)) * Real.exp (-(2 * u / 3)) := by
      rw [← Real.exp_add]; congr 1; ring
    rw [q, this]; ring
  rw [e]
  refine mul_le_mul_of_nonneg_right ?_ (q_nonneg _)
  norm_num at h1 ⊢
  linarith

theorem sum_q_le {L : Nat} {v : ℝ} (hv : 1 ≤ v) (hL : v ≤ 2 ^ L) :
    ∑ i ∈ range L, q (v / 2 ^ i) ≤ 1.4434 + 8 / 7 * (v / 2 ^ L) ^ 3 := by
  have h1 := Q_double L v
  have h2 := (G_bounds (L := L + 1) (u := 2 * v) (by linarith) (by rw [pow_succ]; linarith)).2.2
  have h3 : 2 * v / 2 ^ (L + 1) = v / 2 ^ L := by rw [pow_succ]; field_simp
  rw [h3] at h2
  have h4 := q_nonneg (2 * v)
  have h5 : 0 ≤ 4 / 3 * v ^ 2 / 4 ^ L := by positivity
  have h6 : Q L v = ∑ i ∈ range L, q (v / 2 ^ i) + 4 / 3 * v ^ 2 / 4 ^ L := rfl
  linarith

/-- A function of a register in terms of the events `M ≤ k`. -/
theorem mean_reg_fun {j : Nat} (hp : p ≤ w) (hw : w ≤ 64) (hj : j < 2 ^ p) {φ : Nat → ℝ}
    (h0 : ∀ k, 0 ≤ φ k) :
    mean (fun h : Fin n → Fin (2 ^ 64) => φ (reg w p (hashSet w h) j)) ≤
      φ (w - p + 1) + ∑ k ∈ range (w - p + 1), φ k * (1 - 1 / 2 ^ (p + k)) ^ n := by
  have h1 : ∀ h : Fin n → Fin (2 ^ 64), φ (reg w p (hashSet w h) j) ≤ φ (w - p + 1) +
      ∑ k ∈ range (w - p + 1), φ k * if reg w p (hashSet w h) j ≤ k then (1 : ℝ) else 0 := by
    intro h
    have hle := reg_le w p (hashSet w h) j
    generalize reg w p (hashSet w h) j = M at *
    have hn : ∀ k ∈ range (w - p + 1), 0 ≤ φ k * if M ≤ k then (1 : ℝ) else 0 := fun k _ =>
      mul_nonneg (h0 k) (by split <;> norm_num)
    rcases Nat.lt_or_ge M (w - p + 1) with hM | hM
    · have := single_le_sum hn (mem_range.2 hM)
      rw [if_pos le_rfl, mul_one] at this
      have := h0 (w - p + 1)
      linarith
    · have : M = w - p + 1 := by omega
      rw [this]
      have := sum_nonneg hn
      rw [‹M = _›] at this
      linarith
  refine (mean_mono h1).trans (le_of_eq ?_)
  rw [mean_add, mean_const, mean_sum]
  congr 1
  refine sum_congr rfl fun k hk => ?_
  rw [mem_range] at hk
  rw [mean_mul, mean_reg_le n (by omega) hw hj]

theorem third_arith {T μ b κ a : ℝ} (hμ : 0 < μ) (hκ : κ ≤ 0.064) (ha : 0.6805 ≤ μ * a)
    (hb : b = a - κ / μ) (hT : T * b ^ 3 ≤ 3.585) : T ≤ 15.6 * μ ^ 3 := by
  have h1 : 0.6165 ≤ μ * b := by
    rw [hb, mul_sub, mul_div_cancel₀ _ hμ.ne']
    norm_num at *; linarith
  have hb0 : 0 < b := by
    by_contra h
    have : μ * b ≤ 0 := mul_nonpos_of_nonneg_of_nonpos hμ.le (not_lt.1 h)
    norm_num at h1; linarith
  have h2 : 0.6165 ^ 3 ≤ (μ * b) ^ 3 := pow_le_pow_left₀ (by norm_num) h1 3
  rw [mul_pow] at h2
  have h3 : T * b ^ 3 ≤ 15.6 * μ ^ 3 * b ^ 3 := by
    norm_num at *; linarith
  exact le_of_mul_le_mul_right h3 (by positivity)

/-- The third moment when there are at least about two values for each register. -/
theorem third_large {j : Nat} (hp : p ≤ w) (hw : w ≤ 64) (hj : j < 2 ^ p) {κ : ℝ} (hκ0 : 0 ≤ κ)
    (hκ : κ ≤ 0.064) (ha : 0.6805 ≤ moment w p n (1 / 2) * (n / 2 ^ p)) (ha2 : 2.1 ≤ (n : ℝ) / 2 ^ p)
    (hn : 60 * n ≤ 2 ^ (w + 1)) :
    mean (fun h : Fin n → Fin (2 ^ 64) => ((1 / 2 : ℝ) ^ reg w p (hashSet w h) j) ^ 3 *
      Real.exp (κ / moment w p n (1 / 2) * (1 / 2) ^ reg w p (hashSet w h) j)) ≤
      15.6 * moment w p n (1 / 2) ^ 3 := by
  have he := moment_half_pos (w := w) (p := p) (n := n)
  have hm := mean_reg_fun (n := n) hp hw hj (φ := fun k => ((1 / 2 : ℝ) ^ k) ^ 3 *
    Real.exp (κ / moment w p n (1 / 2) * (1 / 2) ^ k)) fun k => by positivity
  refine hm.trans ?_
  generalize moment w p n (1 / 2) = μ at *
  set R := w - p + 1 with hR
  set a := (n : ℝ) / 2 ^ p with haa
  set lam := κ / μ with hlam
  have hlam0 : 0 ≤ lam := by positivity
  refine third_arith (b := a - lam) he hκ ha (by rw [hlam]) ?_
  set b := a - lam with hb
  have hlm : lam ≤ 0.0942 * a := by
    rw [hlam, div_le_iff₀ he]
    norm_num at *
    nlinarith
  have hb0 : 1.5 ≤ b := by rw [hb]; norm_num at *; linarith
  have haR : a / 2 ^ R ≤ 1 / 60 := by
    rw [haa, div_div, ← pow_add, div_le_div_iff₀ (by positivity) (by norm_num), one_mul,
      show p + R = w + 1 by omega]
    have : (60 * n : ℝ) ≤ 2 ^ (w + 1) := by exact_mod_cast hn
    linarith
  have hbR : b / 2 ^ R ≤ 1 / 60 := by
    refine le_trans ?_ haR
    gcongr
    linarith
  have hlR : lam / 2 ^ R ≤ 1 / 60 := by
    refine le_trans ?_ haR
    gcongr
    norm_num at *; linarith
  have hhalf : ∀ k : ℕ, (1 / 2 : ℝ) ^ k = 1 / 2 ^ k := fun k => by rw [one_div, inv_pow, one_div]
  rw [add_mul, sum_mul]
  have t1 : ((1 / 2 : ℝ) ^ R) ^ 3 * Real.exp (lam * (1 / 2) ^ R) * b ^ 3 ≤ 0.00001 := by
    rw [hhalf]
    have e : (1 / (2 : ℝ) ^ R) ^ 3 * Real.exp (lam * (1 / 2 ^ R)) * b ^ 3 =
        (b / 2 ^ R) ^ 3 * Real.exp (lam / 2 ^ R) := by
      rw [mul_one_div, div_pow, div_pow]; ring
    rw [e]
    have h1 : Real.exp (lam / 2 ^ R) ≤ 2 := by
      refine (Real.exp_le_exp.2 (hlR.trans (by norm_num : (1 / 60 : ℝ) ≤ 1 / 2))).trans ?_
      have := Real.exp_one_lt_d9
      have h2 : Real.exp (1 / 2) * Real.exp (1 / 2) = Real.exp 1 := by rw [← Real.exp_add]; norm_num
      by_contra h3
      rw [not_le] at h3
      nlinarith
    calc (b / 2 ^ R) ^ 3 * Real.exp (lam / 2 ^ R) ≤ (1 / 60) ^ 3 * 2 := by
          gcongr
      _ ≤ _ := by norm_num
  have t2 : ∑ k ∈ range R, ((1 / 2 : ℝ) ^ k) ^ 3 * Real.exp (lam * (1 / 2) ^ k) *
      (1 - 1 / 2 ^ (p + k)) ^ n * b ^ 3 ≤ ∑ k ∈ range R, 2.4834 * q (2 * b / 3 / 2 ^ k) := by
    refine sum_le_sum fun k _ => ?_
    have h1 : (1 - 1 / (2 : ℝ) ^ (p + k)) ^ n ≤ Real.exp (-(a / 2 ^ k)) := by
      have h2 : 1 - 1 / (2 : ℝ) ^ (p + k) ≤ Real.exp (-(1 / 2 ^ (p + k))) := by
        have := Real.add_one_le_exp (-(1 / (2 : ℝ) ^ (p + k)))
        linarith
      have h3 : (0 : ℝ) ≤ 1 - 1 / 2 ^ (p + k) := by
        rw [sub_nonneg, div_le_one (by positivity)]
        exact one_le_pow₀ (by norm_num)
      refine (pow_le_pow_left₀ h3 h2 n).trans (le_of_eq ?_)
      rw [← Real.exp_nat_mul]
      congr 1
      rw [haa, pow_add]
      field_simp
    rw [hhalf]
    have h4 := cube_le_q (u := b / 2 ^ k)
    have e1 : 2 * (b / 2 ^ k) / 3 = 2 * b / 3 / 2 ^ k := by ring
    rw [e1] at h4
    refine le_trans ?_ h4
    have e2 : (b / 2 ^ k) ^ 3 * Real.exp (-(b / 2 ^ k)) =
        (1 / (2 : ℝ) ^ k) ^ 3 * Real.exp (lam * (1 / 2 ^ k)) * Real.exp (-(a / 2 ^ k)) * b ^ 3 := by
      have : Real.exp (-(b / 2 ^ k)) = Real.exp (lam * (1 / 2 ^ k)) * Real.exp (-(a / 2 ^ k)) := by
        rw [← Real.exp_add, hb]; congr 1; ring
      rw [this, div_pow, div_pow]; ring
    rw [e2]
    gcongr
  have t3 := sum_q_le (L := R) (v := 2 * b / 3) (by norm_num at hb0; linarith) (by
    have : b / 2 ^ R ≤ 1 := hbR.trans (by norm_num)
    rw [div_le_one (by positivity)] at this
    norm_num at hb0
    linarith)
  rw [← mul_sum] at t2
  have t4 : (2 * b / 3 / 2 ^ R) ^ 3 ≤ (1 / 60) ^ 3 := by
    refine pow_le_pow_left₀ (by positivity) (le_trans ?_ hbR) 3
    gcongr
    norm_num at hb0; linarith
  norm_num at *
  linarith

/-- The third moment when there are few values. -/
theorem third_small {j : Nat} (hp : p ≤ w) (hw : w ≤ 64) (hj : j < 2 ^ p) {κ : ℝ}
    (hκ : κ ≤ 0.064) (hμ : 0.32 ≤ moment w p n (1 / 2)) (hr : relVar w p n ≤ 1.15) :
    mean (fun h : Fin n → Fin (2 ^ 64) => ((1 / 2 : ℝ) ^ reg w p (hashSet w h) j) ^ 3 *
      Real.exp (κ / moment w p n (1 / 2) * (1 / 2) ^ reg w p (hashSet w h) j)) ≤
      15.6 * moment w p n (1 / 2) ^ 3 := by
  have he := moment_half_pos (w := w) (p := p) (n := n)
  have m2 := mean_pow (w := w) (p := p) (j := j) n hp hw hj (1 / 4)
  have hl : κ / moment w p n (1 / 2) ≤ 0.2 := by
    rw [div_le_iff₀ he]; norm_num at *; linarith
  have hexp : Real.exp 0.2 ≤ 2 := by
    refine (Real.exp_le_exp.2 (by norm_num : (0.2 : ℝ) ≤ 1 / 2)).trans ?_
    have := Real.exp_one_lt_d9
    have h2 : Real.exp (1 / 2) * Real.exp (1 / 2) = Real.exp 1 := by rw [← Real.exp_add]; norm_num
    by_contra h3
    rw [not_le] at h3
    nlinarith
  refine (mean_mono (g := fun h : Fin n → Fin (2 ^ 64) =>
    2 * (1 / 4) ^ reg w p (hashSet w h) j) fun h => ?_).trans ?_
  · generalize reg w p (hashSet w h) j = M
    have h1 : (1 / 2 : ℝ) ^ M ≤ 1 := pow_le_one₀ (by norm_num) (by norm_num)
    have h0 : (0 : ℝ) < (1 / 2) ^ M := by positivity
    have e : (1 / 4 : ℝ) ^ M = ((1 / 2) ^ M) ^ 2 := by
      rw [← pow_mul, mul_comm, pow_mul]; norm_num
    rw [e]
    generalize (1 / 2 : ℝ) ^ M = x at *
    have h2 : Real.exp (κ / moment w p n (1 / 2) * x) ≤ 2 := by
      refine (Real.exp_le_exp.2 ?_).trans hexp
      rcases le_total 0 (κ / moment w p n (1 / 2)) with h | h
      · nlinarith
      · have : κ / moment w p n (1 / 2) * x ≤ 0 := mul_nonpos_of_nonpos_of_nonneg h h0.le
        norm_num; linarith
    calc x ^ 3 * Real.exp (κ / moment w p n (1 / 2) * x) ≤ x ^ 3 * 2 := by gcongr
      _ = x ^ 2 * x * 2 := by ring
      _ ≤ x ^ 2 * 1 * 2 := by gcongr
      _ = _ := by ring
  · rw [mean_mul, m2]
    unfold relVar at hr
    generalize moment w p n (1 / 2) = μ at *
    generalize moment w p n (1 / 4) = s at *
    have h1 : s ≤ 2.15 * μ ^ 2 := by
      have : s / μ ^ 2 ≤ 2.15 := by norm_num at *; linarith
      rwa [div_le_iff₀ (by positivity)] at this
    have h2 : μ ^ 2 * 0.32 ≤ μ ^ 2 * μ := by gcongr
    have e : μ ^ 3 = μ ^ 2 * μ := by ring
    rw [e]
    have h3 := sq_nonneg μ
    norm_num at h1 h2 ⊢
    linarith

/-! ## Deviation of the harmonic sum -/

/-- What is needed of the number of values. -/
structure Loaded (w p n : Nat) : Prop where
  var : relVar w p n ≤ 1.15
  third : ∀ j < 2 ^ p, ∀ κ : ℝ, 0 ≤ κ → κ ≤ 0.064 →
    mean (fun h : Fin n → Fin (2 ^ 64) => ((1 / 2 : ℝ) ^ reg w p (hashSet w h) j) ^ 3 *
      Real.exp (κ / moment w p n (1 / 2) * (1 / 2) ^ reg w p (hashSet w h) j)) ≤
      15.6 * moment w p n (1 / 2) ^ 3

theorem loaded_high (h1 : 8 ≤ p) (h2 : p ≤ 18) (hp : p ≤ w) (hw : w ≤ 64) (h5 : 5 * 2 ^ p ≤ n)
    (hn : 60 * n ≤ 2 ^ (w + 1)) : Loaded w p n := by
  obtain ⟨_, c2, c3⟩ := centre_near (w := w) (by omega) h2 hp h5 hn
  have hm := m_ge h1
  have hw4 : 4 / (2 : ℝ) ^ p ≤ 4 / 256 := by gcongr
  have hw1 : 1.1 / (2 : ℝ) ^ p ≤ 1.1 / 256 := by gcongr
  have he := moment_half_pos (w := w) (p := p) (n := n)
  have ha := (alpha_near (p := p) (by omega) h2).1
  have h5' : 5 * (2 : ℝ) ^ p ≤ n := by exact_mod_cast h5
  refine ⟨by norm_num at *; linarith, fun j hj κ hκ0 hκ => ?_⟩
  refine third_large hp hw hj hκ0 hκ ?_ ?_ hn
  · unfold centre at c2
    rw [div_le_iff₀ he] at c2
    have h3 : (0.7181 : ℝ) ≤ alphaQ p := by
      refine le_trans ?_ ha
      norm_num at hw1 ⊢; linarith
    rw [← mul_div_assoc, le_div_iff₀ (by positivity)]
    have h4 := mul_le_mul_of_nonneg_right h3 (by positivity : (0 : ℝ) ≤ 2 ^ p)
    generalize (2 : ℝ) ^ p = m at *
    norm_num at *
    nlinarith
  · rw [le_div_iff₀ (by positivity)]
    norm_num; linarith

theorem loaded_low (h1 : 8 ≤ p) (h2 : p ≤ 18) (hw : p + 16 ≤ w) (hw' : w ≤ 64) (hn : n ≤ 6 * 2 ^ p) :
    Loaded w p n := by
  have hr := relVar_le hw h1 h2 hn
  refine ⟨hr, fun j hj κ hκ0 hκ => ?_⟩
  obtain ⟨b1, -⟩ := moment_half_bounds (w := w) (p := p) (n := n) (by omega) h2 hw hn
  have hm := m_ge h1
  have hE := E_pos ((n : ℝ) / 2 ^ p)
  have hw1 : 1.5 / (2 : ℝ) ^ p ≤ 1.5 / 256 := by gcongr
  have hn6 : (n : ℝ) / 2 ^ p ≤ 6 := by
    rw [div_le_iff₀ (by positivity)]; exact_mod_cast hn
  have b2 : 0.994 * E (n / 2 ^ p) ≤ moment w p n (1 / 2) := by
    refine le_trans (mul_le_mul_of_nonneg_right ?_ hE.le) b1
    norm_num at hw1 ⊢; linarith
  rcases le_total ((n : ℝ) / 2 ^ p) (137 / 64) with hc | hc
  · refine third_small (by omega) hw' hj hκ ?_ hr
    have := E_anti hc
    have := E_consts.1
    norm_num at *; linarith
  · refine third_large (by omega) hw' hj hκ0 hκ ?_ (by norm_num at *; linarith) ?_
    · have h3 := (mean_above hc hn6).1
      generalize (n : ℝ) / 2 ^ p = l at *
      have h4 : 0.686 ≤ l * E l := by
        norm_num at *; nlinarith
      have h5 := mul_le_mul_of_nonneg_right b2 (by linarith : (0 : ℝ) ≤ l)
      norm_num at *; nlinarith
    · calc 60 * n ≤ 60 * (6 * 2 ^ p) := by omega
        _ ≤ 2 ^ 9 * 2 ^ p := by omega
        _ = 2 ^ (9 + p) := by rw [pow_add]
        _ ≤ _ := Nat.pow_le_pow_right (by norm_num) (by omega)

/-- **Exponential bound on the deviation of the harmonic sum.** -/
theorem harm_tail (hl : Loaded w p n) (hp : p ≤ w) (hw : w ≤ 64) {δ : ℝ} (hδ0 : 0 < δ)
    (hδ : δ ≤ 1 / 10) :
    fraction (fun h : Fin n → Fin (2 ^ 64) =>
        δ / (1 + δ) * (2 ^ p * moment w p n (1 / 2)) ≤ |harm w p h - 2 ^ p * moment w p n (1 / 2)|) ≤
      2 * Real.exp (-(2 ^ p * δ ^ 2 / 4)) := by
  have he := moment_half_pos (w := w) (p := p) (n := n)
  have hm0 : (0 : ℝ) < 2 ^ p := by positivity
  set μ := moment w p n (1 / 2) with hμ
  set d := δ / (1 + δ) with hd
  have hd0 : 0 < d := by positivity
  have hd1 : d ≤ 1 / 11 := by rw [hd, div_le_div_iff₀ (by linarith) (by norm_num)]; linarith
  have hdd : δ ^ 2 ≤ 1.21 * d ^ 2 := by
    rw [hd, div_pow, ← mul_div_assoc, le_div_iff₀ (by positivity)]
    have : (1 + δ) ^ 2 ≤ (1 + 1 / 10) ^ 2 := by gcongr
    norm_num at this ⊢
    nlinarith [sq_nonneg δ]
  set κ := 0.7 * d with hκ
  have hκ0 : 0 ≤ κ := by positivity
  have hκ1 : κ ≤ 0.064 := by rw [hκ]; norm_num at *; linarith
  have hr := hl.var
  -- the lower tail
  have low : fraction (fun h : Fin n → Fin (2 ^ 64) => 2 ^ p * (κ * d) ≤
      ∑ j ∈ range (2 ^ p), -(κ / μ * ((1 / 2) ^ reg w p (hashSet w h) j - μ))) ≤
      Real.exp (-(2 ^ p * δ ^ 2 / 4)) := by
    refine (tail_sum (ψ := fun k => -(κ / μ * ((1 / 2) ^ k - μ))) (Or.inl ?_)
      (fun j hj => mgf_lower hp hw hj hκ0) _).trans (Real.exp_le_exp.2 ?_)
    · intro a b hab
      have : (1 / 2 : ℝ) ^ b ≤ (1 / 2) ^ a := pow_le_pow_of_le_one (by norm_num) (by norm_num) hab
      have h0 : 0 ≤ κ / μ := by positivity
      simp only [neg_le_neg_iff]
      gcongr
    · have hx : Real.exp κ ≤ 1.08 := by
        have h1 := exp_quad hκ0
        have h2 : κ ^ 2 ≤ 0.064 ^ 2 := pow_le_pow_left₀ hκ0 hκ1 2
        have h3 := Real.exp_pos κ
        norm_num at *
        nlinarith
      have h1 : κ ^ 2 * relVar w p n / 2 * Real.exp κ ≤ κ ^ 2 * 1.15 / 2 * 1.08 := by
        have : κ ^ 2 * relVar w p n / 2 ≤ κ ^ 2 * 1.15 / 2 := by gcongr
        calc _ ≤ κ ^ 2 * 1.15 / 2 * Real.exp κ := by gcongr
          _ ≤ _ := by gcongr
      have h2 : κ ^ 2 * 1.15 / 2 * 1.08 - κ * d ≤ -(δ ^ 2 / 4) := by
        rw [hκ]
        norm_num at *
        nlinarith [sq_nonneg d]
      calc (2 : ℝ) ^ p * (κ ^ 2 * relVar w p n / 2 * Real.exp κ) - 2 ^ p * (κ * d)
          ≤ 2 ^ p * (κ ^ 2 * 1.15 / 2 * 1.08) - 2 ^ p * (κ * d) := by gcongr
        _ = 2 ^ p * (κ ^ 2 * 1.15 / 2 * 1.08 - κ * d) := by ring
        _ ≤ 2 ^ p * -(δ ^ 2 / 4) := by gcongr
        _ = _ := by ring
  -- the upper tail
  have upp : fraction (fun h : Fin n → Fin (2 ^ 64) => 2 ^ p * (κ * d) ≤
      ∑ j ∈ range (2 ^ p), κ / μ * ((1 / 2) ^ reg w p (hashSet w h) j - μ)) ≤
      Real.exp (-(2 ^ p * δ ^ 2 / 4)) := by
    refine (tail_sum (ψ := fun k => κ / μ * ((1 / 2) ^ k - μ)) (Or.inr ?_)
      (fun j hj => mgf_upper hp hw hj hκ0 (hl.third j hj κ hκ0 hκ1)) _).trans (Real.exp_le_exp.2 ?_)
    · intro a b hab
      have : (1 / 2 : ℝ) ^ b ≤ (1 / 2) ^ a := pow_le_pow_of_le_one (by norm_num) (by norm_num) hab
      have h0 : 0 ≤ κ / μ := by positivity
      simp only
      gcongr
    · have h1 : κ ^ 2 * relVar w p n / 2 ≤ κ ^ 2 * 1.15 / 2 := by gcongr
      have h3 : κ ^ 3 ≤ κ ^ 2 * 0.064 := by
        rw [pow_succ]; gcongr
      have h2 : κ ^ 2 * 1.15 / 2 + 15.6 * κ ^ 3 / 6 - κ * d ≤ -(δ ^ 2 / 4) := by
        have h4 : κ ^ 2 = 0.49 * d ^ 2 := by rw [hκ]; ring
        have h5 : κ * d = 0.7 * d ^ 2 := by rw [hκ]; ring
        rw [h5]
        rw [h4] at h3 ⊢
        have h6 := sq_nonneg d
        norm_num at h3 hdd ⊢
        linarith
      calc (2 : ℝ) ^ p * (κ ^ 2 * relVar w p n / 2 + 15.6 * κ ^ 3 / 6) - 2 ^ p * (κ * d)
          ≤ 2 ^ p * (κ ^ 2 * 1.15 / 2 + 15.6 * κ ^ 3 / 6) - 2 ^ p * (κ * d) := by gcongr
        _ = 2 ^ p * (κ ^ 2 * 1.15 / 2 + 15.6 * κ ^ 3 / 6 - κ * d) := by ring
        _ ≤ 2 ^ p * -(δ ^ 2 / 4) := by gcongr
        _ = _ := by ring
  have hsum : ∀ h : Fin n → Fin (2 ^ 64),
      ∑ j ∈ range (2 ^ p), κ / μ * ((1 / 2) ^ reg w p (hashSet w h) j - μ) =
        κ / μ * (harm w p h - 2 ^ p * μ) := by
    intro h
    rw [← mul_sum, sum_sub_distrib, sum_const, card_range, nsmul_eq_mul, harm]
    push_cast
    rfl
  rw [two_mul]
  refine le_trans (fraction_mono fun h hh => ?_) ((fraction_or _ _).trans (add_le_add low upp))
  rw [sum_neg_distrib, hsum]
  have hk : 0 < κ / μ := by rw [hκ]; positivity
  have e : (2 : ℝ) ^ p * (κ * d) = κ / μ * (d * (2 ^ p * μ)) := by field_simp
  rw [e]
  rcases le_abs.1 hh with h1 | h1
  · right; gcongr
  · left; rw [← mul_neg]; gcongr

end HLL
