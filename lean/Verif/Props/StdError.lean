import Verif.Proofs.StdError
import Verif.Props.Tails

/-!
# C69: bias and standard error of `HyperLogLogPlus::count`

HyperLogLog is said to have a relative standard error of `1.04/√m` and to be nearly unbiased.  This is
proved here for the code, for more than `6 m` values: the root mean square of the error and the error
of the mean, over all assignments of hashes to the values, of what `count` returns.
-/

namespace HLL
open Spec F64

variable {cfg : Cfg} {ln : F64 → F64} {ords : Nat → IterOrder × IterOrder} {p n N i : Nat}
  {ops : List (Op (Fin N))} {V : Finset (Fin N)}

/-- Restricting a random assignment to a set of `n` values gives a random assignment. -/
theorem mean_restrict (V : Finset (Fin N)) (w : Nat) (f : Finset Nat → ℝ) :
    mean (fun h : Fin N → Fin (2 ^ 64) => f (V.image fun v => (h v : Nat) % 2 ^ w)) =
      mean (fun g : Fin V.card → Fin (2 ^ 64) => f (hashSet w g)) := by
  classical
  let e : {v // v ∈ V} ≃ Fin V.card := V.equivFin
  let E1 : (Fin N → Fin (2 ^ 64)) ≃ ({v // v ∈ V} → Fin (2 ^ 64)) × ({v // v ∉ V} → Fin (2 ^ 64)) :=
    Equiv.piEquivPiSubtypeProd (· ∈ V) fun _ => Fin (2 ^ 64)
  let E2 : ({v // v ∈ V} → Fin (2 ^ 64)) ≃ (Fin V.card → Fin (2 ^ 64)) :=
    Equiv.arrowCongr e (Equiv.refl _)
  let T := E1.trans (Equiv.prodCongr E2 (Equiv.refl _))
  have himg : ∀ h : Fin N → Fin (2 ^ 64),
      (V.image fun v => (h v : Nat) % 2 ^ w) = hashSet w (T h).1 := by
    intro h
    ext y
    simp only [hashSet, Finset.mem_image, Finset.mem_univ, true_and]
    constructor
    · rintro ⟨v, hv, rfl⟩
      refine ⟨e ⟨v, hv⟩, ?_⟩
      simp [T, E1, E2, Equiv.piEquivPiSubtypeProd]
    · rintro ⟨i, rfl⟩
      exact ⟨(e.symm i).1, (e.symm i).2, rfl⟩
  have hsum : ∑ h : Fin N → Fin (2 ^ 64), f (V.image fun v => (h v : Nat) % 2 ^ w) =
      Fintype.card ({v // v ∉ V} → Fin (2 ^ 64)) * ∑ g : Fin V.card → Fin (2 ^ 64), f (hashSet w g) := by
    rw [Fintype.sum_equiv T _ (fun x => f (hashSet w x.1)) fun h => by rw [himg],
      Fintype.sum_prod_type, Finset.mul_sum]
    refine Finset.sum_congr rfl fun g _ => ?_
    simp only [Finset.sum_const, Finset.card_univ, nsmul_eq_mul]
  have htot : Fintype.card (Fin N → Fin (2 ^ 64)) =
      Fintype.card (Fin V.card → Fin (2 ^ 64)) * Fintype.card ({v // v ∉ V} → Fin (2 ^ 64)) := by
    rw [Fintype.card_congr T, Fintype.card_prod]
  have h0 : (0 : ℝ) < Fintype.card ({v // v ∉ V} → Fin (2 ^ 64)) := by exact_mod_cast Fintype.card_pos
  have h1 := card_pos_real V.card
  unfold mean
  rw [htot, Nat.cast_mul, hsum]
  field_simp

theorem exp_neg_le' {x : ℝ} {k : Nat} (h : (k : ℝ) ≤ x) : Real.exp (-x) ≤ (0.36788 : ℝ) ^ k := by
  have h1 : Real.exp (-1) ≤ 0.36788 := by
    have := Real.exp_neg_one_lt_d9
    norm_num at this ⊢; linarith
  calc Real.exp (-x) ≤ Real.exp (k * -1) := Real.exp_le_exp.2 (by linarith)
    _ = Real.exp (-1) ^ k := by rw [Real.exp_nat_mul]
    _ ≤ _ := pow_le_pow_left₀ (Real.exp_pos _).le h1 k

/-- The part of the mean square that comes from very small harmonic sums. -/
theorem rest_square (h1 : 12 ≤ p) (hn6 : 6 * 2 ^ p < n) :
    (187 * 2 ^ 57) ^ 2 * Real.exp (-(0.078 * 2 ^ p)) ≤ 1 / 10 ^ 60 * (n : ℝ) ^ 2 := by
  have hm : (2 : ℝ) ^ 12 ≤ 2 ^ p := pow_le_pow_right₀ (by norm_num) h1
  have h := exp_neg_le (x := 0.078 * 2 ^ p) (k := 250) (by norm_num at hm ⊢; linarith)
  have hn : (1 : ℝ) ≤ n := by exact_mod_cast (by omega : 1 ≤ n)
  have hn2 : (1 : ℝ) ≤ (n : ℝ) ^ 2 := one_le_pow₀ hn
  have h3 : (187 * 2 ^ 57 : ℝ) ^ 2 * 0.4 ^ 250 ≤ 1 / 10 ^ 60 := by norm_num
  calc _ ≤ (187 * 2 ^ 57 : ℝ) ^ 2 * 0.4 ^ 250 := by gcongr
    _ ≤ 1 / 10 ^ 60 := h3
    _ ≤ _ := by nlinarith

theorem rest_first (h1 : 12 ≤ p) (hn6 : 6 * 2 ^ p < n) :
    2 * (187 * 2 ^ 57) * Real.exp (-(0.078 * 2 ^ p)) ≤ 1 / 10 ^ 60 * (n : ℝ) := by
  have hm : (2 : ℝ) ^ 12 ≤ 2 ^ p := pow_le_pow_right₀ (by norm_num) h1
  have h := exp_neg_le (x := 0.078 * 2 ^ p) (k := 250) (by norm_num at hm ⊢; linarith)
  have hn : (1 : ℝ) ≤ n := by exact_mod_cast (by omega : 1 ≤ n)
  have h3 : 2 * (187 * 2 ^ 57 : ℝ) * 0.4 ^ 250 ≤ 1 / 10 ^ 60 := by norm_num
  calc _ ≤ 2 * (187 * 2 ^ 57 : ℝ) * 0.4 ^ 250 := by gcongr
    _ ≤ 1 / 10 ^ 60 := h3
    _ ≤ _ := by nlinarith

theorem tail_tenth (h1 : 12 ≤ p) (h2 : p ≤ 18) :
    2 * Real.exp (-(2 ^ p * 0.1 ^ 2 / 4)) ≤ 0.372 / 2 ^ p := by
  have key : ∀ k : Nat, (k : ℝ) ≤ 2 ^ p * 0.1 ^ 2 / 4 → 2 * (0.36788 : ℝ) ^ k ≤ 0.372 / 2 ^ p →
      2 * Real.exp (-(2 ^ p * 0.1 ^ 2 / 4)) ≤ 0.372 / 2 ^ p := fun k a b => by
    have := exp_neg_le' a; linarith
  interval_cases p
  · exact key 10 (by norm_num) (by norm_num)
  · exact key 20 (by norm_num) (by norm_num)
  all_goals exact key 40 (by norm_num) (by norm_num)

theorem tail_seven (h1 : 14 ≤ p) (h2 : p ≤ 18) :
    2 * Real.exp (-(2 ^ p * 0.07 ^ 2 / 4)) ≤ 0.0001 / 2 ^ p := by
  have key : ∀ k : Nat, (k : ℝ) ≤ 2 ^ p * 0.07 ^ 2 / 4 → 2 * (0.36788 : ℝ) ^ k ≤ 0.0001 / 2 ^ p →
      2 * Real.exp (-(2 ^ p * 0.07 ^ 2 / 4)) ≤ 0.0001 / 2 ^ p := fun k a b => by
    have := exp_neg_le' a; linarith
  interval_cases p
  · exact key 20 (by norm_num) (by norm_num)
  all_goals exact key 40 (by norm_num) (by norm_num)

/-- Collecting the terms of the mean square. -/
theorem square_arith {x D e b q : ℝ} (hx : 0 < x) (hD : 0 ≤ D) (he : 0 ≤ e) (hb0 : 0 ≤ b)
    (hb : b ≤ 0.001) (hq : q ≤ 2 * D * e * x ^ 2) :
    (D * x + b) ^ 2 + q ≤ ((D + e) * x + 0.001) ^ 2 := by
  have h1 : (D * x + b) ^ 2 ≤ (D * x + 0.001) ^ 2 := by gcongr
  have h2 : ((D + e) * x + 0.001) ^ 2 =
      (D * x + 0.001) ^ 2 + 2 * D * e * x ^ 2 + (e * x) ^ 2 + 0.002 * (e * x) := by ring
  have h3 : 0 ≤ (e * x) ^ 2 + 0.002 * (e * x) := by positivity
  linarith

theorem small_four (h1 : 12 ≤ p) : 4 / (2 : ℝ) ^ p ≤ 4 / 2 ^ 12 ∧ 1.1 / (2 : ℝ) ^ p ≤ 1.1 / 2 ^ 12 := by
  have hm : (2 : ℝ) ^ 12 ≤ 2 ^ p := pow_le_pow_right₀ (by norm_num) h1
  constructor <;> gcongr

/-- The mean square of the error, with the parameter `δ` still free. -/
theorem plus_square {δ q e : ℝ} (hln : LnSpec ln) (v : Search) (h1 : 12 ≤ p) (h2 : p ≤ 18)
    (hn6 : 6 * 2 ^ p < n) (hn : n ≤ 2 ^ 59) (hδ0 : 0 < δ) (hδ : δ ≤ 1 / 10)
    {y : (Fin n → Fin (2 ^ 64)) → ℚ} (hy : ∀ h, plusCount ln (Plus.biasOf v) p (hashSet 64 h) = fin (y h))
    (hq : 2 * Real.exp (-(2 ^ p * δ ^ 2 / 4)) ≤ q / 2 ^ p) (he0 : 0 ≤ e)
    (he : 1.03 * q + 1 / 10 ^ 30 ≤ 2 * (1.0006 * (1 + δ) * 1.0446) * e) :
    mean (fun h => ((y h : ℝ) - n) ^ 2) ≤
      (((1.0006 * (1 + δ) * 1.0446 + e) / √(2 ^ p) + 0.001) * n) ^ 2 := by
  have H := ratio_plus hln v (by omega) h2 hn6 hn hδ0 hδ hy
  obtain ⟨f1, f2⟩ := small_four h1
  have hm0 : (0 : ℝ) < 2 ^ p := by positivity
  have hm18 : (2 : ℝ) ^ p ≤ 2 ^ 18 := pow_le_pow_right₀ (by norm_num) h2
  have hs : 0 < √((2 : ℝ) ^ p) := Real.sqrt_pos.2 hm0
  have hx : 0 < 1 / √((2 : ℝ) ^ p) := by positivity
  have hx2 : (1 / √((2 : ℝ) ^ p)) ^ 2 = 1 / 2 ^ p := by
    rw [div_pow, Real.sq_sqrt hm0.le, one_pow]
  have key := H.square hδ0 (by positivity) (r := 1.0446 * (1 / √(2 ^ p))) (by positivity) (by
    rw [mul_pow, hx2, mul_one_div]
    gcongr
    norm_num at f1 ⊢; linarith)
  refine key.trans ?_
  have hr := rest_square (n := n) h1 hn6
  rw [mul_pow _ (n : ℝ)]
  refine (add_le_add le_rfl hr).trans ?_
  rw [← add_mul]
  refine mul_le_mul_of_nonneg_right ?_ (sq_nonneg _)
  rw [div_eq_mul_one_div (1.0006 * (1 + δ) * 1.0446 + e), add_assoc, ← mul_assoc]
  refine square_arith hx (by positivity) he0 (by positivity) (by norm_num at f2 ⊢; linarith) ?_
  rw [hx2]
  have e1 : 1.03 * (q / 2 ^ p) + 1 / 10 ^ 30 * (1 / (2 : ℝ) ^ p) =
      (1.03 * q + 1 / 10 ^ 30) * (1 / 2 ^ p) := by ring
  have e2 : (1 : ℝ) / 10 ^ 60 ≤ 1 / 10 ^ 30 * (1 / 2 ^ p) := by
    rw [one_div_mul_one_div]
    refine one_div_le_one_div_of_le (by positivity) ?_
    calc (10 : ℝ) ^ 30 * 2 ^ p ≤ 10 ^ 30 * 2 ^ 18 := by gcongr
      _ ≤ 10 ^ 60 := by norm_num
  have e3 : (1.03 * q + 1 / 10 ^ 30) * (1 / 2 ^ p) ≤
      2 * (1.0006 * (1 + δ) * 1.0446) * e * (1 / 2 ^ p) := by gcongr
  linarith

/-- The error of the mean. -/
theorem plus_bias (hln : LnSpec ln) (v : Search) (h1 : 12 ≤ p) (h2 : p ≤ 18)
    (hn6 : 6 * 2 ^ p < n) (hn : n ≤ 2 ^ 59)
    {y : (Fin n → Fin (2 ^ 64)) → ℚ} (hy : ∀ h, plusCount ln (Plus.biasOf v) p (hashSet 64 h) = fin (y h)) :
    |mean (fun h => (y h : ℝ)) - n| ≤ (0.0007 + 3 / 2 ^ p) * n := by
  have H := ratio_plus (δ := 0.1) hln v (by omega) h2 hn6 hn (by norm_num) (by norm_num) hy
  obtain ⟨f1, f2⟩ := small_four h1
  have hm0 : (0 : ℝ) < 2 ^ p := by positivity
  have hm18 : (2 : ℝ) ^ p ≤ 2 ^ 18 := pow_le_pow_right₀ (by norm_num) h2
  have hn59 : (n : ℝ) ≤ 2 ^ 59 := by exact_mod_cast hn
  have key := H.first (by norm_num) (by positivity) (hn59.trans (by norm_num))
  refine key.trans ((add_le_add le_rfl (rest_first (n := n) h1 hn6)).trans ?_)
  rw [← add_mul]
  refine mul_le_mul_of_nonneg_right ?_ (Nat.cast_nonneg n)
  have ht := tail_tenth h1 h2
  have e0 : (1.09 + 4 / (2 : ℝ) ^ p) / 2 ^ p ≤ 1.091 / 2 ^ p := by
    gcongr; norm_num at f1 ⊢; linarith
  have e1 : ∀ a : ℝ, a / 2 ^ p = a * (1 / 2 ^ p) := fun a => by ring
  rw [e1] at ht
  rw [e1 1.091] at e0
  rw [e1 1.1, e1 3]
  have hx : 0 < 1 / (2 : ℝ) ^ p := by positivity
  generalize (1.09 + 4 / (2 : ℝ) ^ p) / 2 ^ p = v at *
  generalize 1 / (2 : ℝ) ^ p = x at *
  norm_num at *
  linarith

/-- What `count` returns on sketch `i`, as a random variable. -/
theorem plus_variable (hln : LnSpec ln) (c : Serde.Codec (Fin N))
    (hs : ∀ h, Supported cfg c (ops.map (withHashes h)))
    (hV : (received 18 ops)[i]? = some (p, V)) (h1 : 4 ≤ p) :
    ∃ F : Finset Nat → ℚ, (∀ S, plusCount ln (Plus.biasOf cfg.search) p S = fin (F S)) ∧
      ∀ h, later (Plus.api cfg ln c) ords (ops.map (withHashes h)) [.count i] =
        .ok [.count (fin (F (V.image fun v => (h v : Nat) % 2 ^ 64)))] := by
  choose F hF using fun S : Finset Nat => plusCount_range hln cfg.search h1 (received_le hV) (S := S)
  refine ⟨F, fun S => (hF S).1, fun h => ?_⟩
  have hc : (contents 64 18 (ops.map (withHashes h)))[i]? = some (meaning 64 h (p, V)) := by
    rw [contents_meaning, List.getElem?_map, hV]; rfl
  rw [plus_count_val (hs h) hc]
  simp only [meaning]
  rw [(hF _).1]

/-- **C69**, the standard error of `HyperLogLogPlus::count`: run any program, with random hashes.  If
sketch `i` has precision `p ≥ 14` and received exactly the values `V`, and `n = |V|` is more than
`6 m` and at most `2^59`, then `count` on it always returns a number, and the root mean square of its
error is at most `(1.12/√m + 0.001) n`. -/
theorem C69_plus_standard_error (hln : LnSpec ln) (c : Serde.Codec (Fin N))
    (hs : ∀ h, Supported cfg c (ops.map (withHashes h)))
    (hV : (received 18 ops)[i]? = some (p, V)) (h1 : 14 ≤ p) (hn6 : 6 * 2 ^ p < V.card)
    (hn : V.card ≤ 2 ^ 59) :
    ∃ y : (Fin N → Fin (2 ^ 64)) → ℚ,
      (∀ h, later (Plus.api cfg ln c) ords (ops.map (withHashes h)) [.count i] =
        .ok [.count (fin (y h))]) ∧
      √(mean fun h => ((y h : ℝ) - V.card) ^ 2) ≤ (1.12 / √(2 ^ p) + 0.001) * V.card := by
  have h2 := received_le hV
  obtain ⟨F, hF, hl⟩ := plus_variable (ords := ords) hln c hs hV (by omega)
  refine ⟨_, hl, Real.sqrt_le_iff.2 ⟨by positivity, ?_⟩⟩
  rw [mean_restrict V 64 fun S => ((F S : ℝ) - V.card) ^ 2]
  have key := plus_square (δ := 0.07) (q := 0.0001) (e := 1.12 - 1.0006 * (1 + 0.07) * 1.0446) hln
    cfg.search (by omega) h2 hn6 hn (by norm_num) (by norm_num) (y := fun g => F (hashSet 64 g))
    (fun g => hF _) (tail_seven h1 h2) (by norm_num) (by norm_num)
  rwa [add_sub_cancel] at key

/-- **C69** for the precisions 12 and 13 too, with a larger constant. -/
theorem C69_plus_standard_error_12 (hln : LnSpec ln) (c : Serde.Codec (Fin N))
    (hs : ∀ h, Supported cfg c (ops.map (withHashes h)))
    (hV : (received 18 ops)[i]? = some (p, V)) (h1 : 12 ≤ p) (hn6 : 6 * 2 ^ p < V.card)
    (hn : V.card ≤ 2 ^ 59) :
    ∃ y : (Fin N → Fin (2 ^ 64)) → ℚ,
      (∀ h, later (Plus.api cfg ln c) ords (ops.map (withHashes h)) [.count i] =
        .ok [.count (fin (y h))]) ∧
      √(mean fun h => ((y h : ℝ) - V.card) ^ 2) ≤ (1.35 / √(2 ^ p) + 0.001) * V.card := by
  have h2 := received_le hV
  obtain ⟨F, hF, hl⟩ := plus_variable (ords := ords) hln c hs hV (by omega)
  refine ⟨_, hl, Real.sqrt_le_iff.2 ⟨by positivity, ?_⟩⟩
  rw [mean_restrict V 64 fun S => ((F S : ℝ) - V.card) ^ 2]
  have key := plus_square (δ := 0.1) (q := 0.372) (e := 1.35 - 1.0006 * (1 + 0.1) * 1.0446) hln
    cfg.search (by omega) h2 hn6 hn (by norm_num) (by norm_num) (y := fun g => F (hashSet 64 g))
    (fun g => hF _) (tail_tenth h1 h2) (by norm_num) (by norm_num)
  rwa [add_sub_cancel] at key

/-- **C69**, the bias of `HyperLogLogPlus::count`: under the same conditions, for `p ≥ 12`, the mean of
what `count` returns differs from `n` by at most `(0.0007 + 3/m) n`. -/
theorem C69_plus_bias (hln : LnSpec ln) (c : Serde.Codec (Fin N))
    (hs : ∀ h, Supported cfg c (ops.map (withHashes h)))
    (hV : (received 18 ops)[i]? = some (p, V)) (h1 : 12 ≤ p) (hn6 : 6 * 2 ^ p < V.card)
    (hn : V.card ≤ 2 ^ 59) :
    ∃ y : (Fin N → Fin (2 ^ 64)) → ℚ,
      (∀ h, later (Plus.api cfg ln c) ords (ops.map (withHashes h)) [.count i] =
        .ok [.count (fin (y h))]) ∧
      |mean (fun h => (y h : ℝ)) - V.card| ≤ (0.0007 + 3 / 2 ^ p) * V.card := by
  obtain ⟨F, hF, hl⟩ := plus_variable (ords := ords) hln c hs hV (by omega)
  refine ⟨_, hl, ?_⟩
  rw [mean_restrict V 64 fun S => (F S : ℝ)]
  exact plus_bias hln cfg.search h1 (received_le hV) hn6 hn fun g => hF _

/-- An instance: two sketches with `2^14` registers have 200000 values each, half of them shared; the
count of the merged sketch is a number between 299734 and 300266 on average, and its standard error
is at most 2925, that is 0.975 %. -/
example (hln : LnSpec ln) : ∃ y : (Fin (3 * 100000) → Fin (2 ^ 64)) → ℚ,
    (∀ h, later (Plus.api Cfg.debug64 ln (noCodec _)) ords ((twoSites 100000).map (withHashes h))
      [.count 0] = .ok [.count (fin (y h))]) ∧
    |mean (fun h => (y h : ℝ)) - (300000 : ℕ)| ≤ 266 ∧
    √(mean fun h => ((y h : ℝ) - (300000 : ℕ)) ^ 2) ≤ 2925 := by
  have hcard : (Finset.univ : Finset (Fin (3 * 100000))).card = 300000 := by
    rw [Finset.card_univ, Fintype.card_fin]
  have hs := fun h => supported64 (cfg := Cfg.debug64) rfl (noCodec _) (twoSites_reload 100000 h)
  obtain ⟨y, e1, e2⟩ := C69_plus_bias (ords := ords) (cfg := Cfg.debug64) hln (noCodec _) hs
    (received_twoSites 100000 (by norm_num)) (by norm_num) (by rw [hcard]; norm_num)
    (by rw [hcard]; norm_num)
  obtain ⟨y', e1', e2'⟩ := C69_plus_standard_error (ords := ords) (cfg := Cfg.debug64) hln (noCodec _) hs
    (received_twoSites 100000 (by norm_num)) (by norm_num) (by rw [hcard]; norm_num)
    (by rw [hcard]; norm_num)
  have e : y = y' := by
    funext h
    have := (e1 h).symm.trans (e1' h)
    simpa using this
  subst e
  rw [hcard] at e2 e2'
  refine ⟨y, e1, e2.trans (by norm_num), e2'.trans ?_⟩
  have h14 : √((2 : ℝ) ^ 14) = 128 := by
    rw [show (2 : ℝ) ^ 14 = 128 ^ 2 by norm_num, Real.sqrt_sq (by norm_num)]
  rw [h14]
  norm_num

end HLL
