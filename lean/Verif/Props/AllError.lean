import Verif.Proofs.AllError

/-!
# C74: the standard error of `HyperLogLogPlus::count` at every cardinality

C69 treats more than `6 m` values, where `count` returns the raw estimate.  Below that `count` uses the
sparse representation, linear counting or the bias tables, depending on the hashes.  The mean square of
the error over all hashes is bounded here whichever of them is used.
-/

namespace HLL
open Spec F64

variable {cfg : Cfg} {ln : F64 → F64} {ords : Nat → IterOrder × IterOrder} {p n N i : Nat}
  {ops : List (Op (Fin N))} {V : Finset (Fin N)}

/-- The mean square of the error for one sketch. -/
theorem all_square (hln : LnSpec ln) (v : Search) (h1 : 13 ≤ p) (h2 : p ≤ 18) (hn : n ≤ 2 ^ 59)
    {y : (Fin n → Fin (2 ^ 64)) → ℚ} (hy : ∀ h, plusCount ln (Plus.biasOf v) p (hashSet 64 h) = fin (y h)) :
    mean (fun h => ((y h : ℝ) - n) ^ 2) ≤
      ((1.67 / √(2 ^ p) + 0.005 + 4 / 2 ^ p) * (n + 1.6 * 2 ^ p)) ^ 2 := by
  rcases Nat.lt_or_ge (6 * 2 ^ p) n with hn6 | hn6
  · have key := plus_square (δ := 0.1) (q := 0.372) (e := 1.35 - 1.0006 * (1 + 0.1) * 1.0446) hln
      v (by omega) h2 hn6 hn (by norm_num) (by norm_num) hy (tail_tenth (by omega) h2) (by norm_num)
      (by norm_num)
    rw [add_sub_cancel] at key
    refine key.trans ?_
    have hm0 : (0 : ℝ) < 2 ^ p := by positivity
    have hs : 0 < √((2 : ℝ) ^ p) := Real.sqrt_pos.2 hm0
    have h3 : 1.35 / √((2 : ℝ) ^ p) ≤ 1.67 / √(2 ^ p) := by gcongr; norm_num
    have h4 : 0 ≤ 4 / (2 : ℝ) ^ p := by positivity
    have h5 : (n : ℝ) ≤ n + 1.6 * 2 ^ p := le_add_of_nonneg_right (by positivity)
    refine pow_le_pow_left₀ (by positivity) (mul_le_mul ?_ h5 (by positivity) (by positivity)) 2
    generalize 1.35 / √((2 : ℝ) ^ p) = a at *
    generalize 1.67 / √((2 : ℝ) ^ p) = b at *
    generalize 4 / (2 : ℝ) ^ p = c at *
    norm_num only at *
    linarith
  · exact low_square hln v h1 h2 hn6 hy

/-- **C74**, the standard error of `HyperLogLogPlus::count` at every cardinality: run any program, with
random hashes.  If sketch `i` has precision `p ≥ 13` and received exactly the values `V`, and
`n = |V| ≤ 2^59`, then `count` on it always returns a number, and the root mean square of its error is
at most `(1.67/√m + 0.005 + 4/m) (n + 1.6 m)`. -/
theorem C74_plus_error_everywhere (hln : LnSpec ln) (c : Serde.Codec (Fin N))
    (hs : ∀ h, Supported cfg c (ops.map (withHashes h)))
    (hV : (received 18 ops)[i]? = some (p, V)) (h1 : 13 ≤ p) (hn : V.card ≤ 2 ^ 59) :
    ∃ y : (Fin N → Fin (2 ^ 64)) → ℚ,
      (∀ h, later (Plus.api cfg ln c) ords (ops.map (withHashes h)) [.count i] =
        .ok [.count (fin (y h))]) ∧
      √(mean fun h => ((y h : ℝ) - V.card) ^ 2) ≤
        (1.67 / √(2 ^ p) + 0.005 + 4 / 2 ^ p) * (V.card + 1.6 * 2 ^ p) := by
  obtain ⟨F, hF, hl⟩ := plus_variable (ords := ords) hln c hs hV (by omega)
  refine ⟨_, hl, Real.sqrt_le_iff.2 ⟨by positivity, ?_⟩⟩
  rw [mean_restrict V 64 fun S => ((F S : ℝ) - V.card) ^ 2]
  exact all_square hln cfg.search h1 (received_le hV) hn (y := fun g => F (hashSet 64 g)) fun g => hF _

/-- An instance where linear counting, the bias tables and the raw estimate are all possible: two
sketches with `2^14` registers have 20000 values each, half of them shared; the standard error of the
count of the merged sketch is at most 1030, and C69 does not apply to these 30000 values. -/
example (hln : LnSpec ln) : ¬ 6 * 2 ^ 14 < 30000 ∧ ∃ y : (Fin (3 * 10000) → Fin (2 ^ 64)) → ℚ,
    (∀ h, later (Plus.api Cfg.debug64 ln (noCodec _)) ords ((twoSites 10000).map (withHashes h))
      [.count 0] = .ok [.count (fin (y h))]) ∧
    √(mean fun h => ((y h : ℝ) - (30000 : ℕ)) ^ 2) ≤ 1030 := by
  have hcard : (Finset.univ : Finset (Fin (3 * 10000))).card = 30000 := by
    rw [Finset.card_univ, Fintype.card_fin]
  obtain ⟨y, e1, e2⟩ := C74_plus_error_everywhere (ords := ords) (cfg := Cfg.debug64) hln (noCodec _)
    (fun h => supported64 (cfg := Cfg.debug64) rfl (noCodec _) (twoSites_reload 10000 h))
    (received_twoSites 10000 (by norm_num)) (by norm_num) (by rw [hcard]; norm_num)
  rw [hcard] at e2
  refine ⟨by norm_num, y, e1, e2.trans ?_⟩
  have h14 : √((2 : ℝ) ^ 14) = 128 := by
    rw [show (2 : ℝ) ^ 14 = 128 ^ 2 by norm_num, Real.sqrt_sq (by norm_num)]
  rw [h14]
  norm_num

end HLL
