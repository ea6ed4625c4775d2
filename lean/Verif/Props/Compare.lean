import Verif.Proofs.Compare
import Verif.Props.StdError

/-!
# C79: HyperLogLog++ against HyperLogLog for small cardinalities

`evaluation/README.md:17-19`: "HyperLogLog++ displays lower relative error compared to HyperLogLog in
small cardinalities because the sparse representation of the sketch is used which allows us to perform
estimations with much higher precision."
-/

namespace HLL
open Spec F64

variable {cfg cfg' : Cfg} {ln : F64 → F64} {ords ords' : Nat → IterOrder × IterOrder} {p N N' i j : Nat}
  {ops : List (Op (Fin N))} {V : Finset (Fin N)} {ops' : List (Op (Fin N'))} {V' : Finset (Fin N')}

/-- What `count` of `HyperLogLogPF` returns on sketch `j` that received few values, as a random
variable. -/
theorem pf_variable_few (hln : LnSpec ln) (c : Serde.Codec (Fin N'))
    (hs : ∀ h, Supported cfg c (ops'.map (withHashes h)))
    (hV : (received 16 ops')[j]? = some (p, V')) (h1 : 4 ≤ p) (hn : 100 * V'.card ≤ 27 * 2 ^ p) :
    ∃ F : Finset Nat → ℚ,
      (∀ S : Finset Nat, (∀ x ∈ S, x < 2 ^ 32) → S.card ≤ V'.card → pfCount ln p S = fin (F S)) ∧
      ∀ h, later (PF.api cfg ln c) ords (ops'.map (withHashes h)) [.count j] =
        .ok [.count (fin (F (V'.image fun v => (h v : Nat) % 2 ^ 32)))] := by
  have hex : ∀ S : Finset Nat, ∃ y : ℚ, (∀ x ∈ S, x < 2 ^ 32) → S.card ≤ V'.card → pfCount ln p S = fin y := by
    intro S
    by_cases h : (∀ x ∈ S, x < 2 ^ 32) ∧ S.card ≤ V'.card
    · obtain ⟨y, hy, -⟩ := pf_few hln h1 (received_le hV) h.1 (by have := h.2; omega)
      exact ⟨y, fun _ _ => hy⟩
    · exact ⟨0, fun a b => absurd ⟨a, b⟩ h⟩
  choose F hF using hex
  refine ⟨F, hF, fun h => ?_⟩
  have hc : (contents 32 16 (ops'.map (withHashes h)))[j]? = some (meaning 32 h (p, V')) := by
    rw [contents_meaning, List.getElem?_map, hV]; rfl
  rw [pf_count_val (hs h) hc]
  simp only [meaning]
  rw [hF _ (by
    intro x hx
    obtain ⟨v, _, rfl⟩ := Finset.mem_image.1 hx
    exact Nat.mod_lt _ (by positivity)) Finset.card_image_le]

/-- **C79**, `HyperLogLogPlus`: run any program, with random hashes.  If sketch `i` has precision `p` and
received exactly the values `V`, and `n = |V|` is so small that the sketch is certainly sparse, then
`count` on it always returns a number, and the root mean square of its error is at most
`(2^-12 + 1.19 n / 2^25) n`. -/
theorem C79_plus_few_values (hln : LnSpec ln) (c : Serde.Codec (Fin N))
    (hs : ∀ h, Supported cfg c (ops.map (withHashes h)))
    (hV : (received 18 ops)[i]? = some (p, V)) (h1 : 4 ≤ p) (hn1 : 1 ≤ V.card)
    (hn : 5 * V.card ≤ 4 * 2 ^ p / 5 ∨ 4 * V.card + 15 ≤ 4 * 2 ^ p / 5 ∨
      3 * V.card + 2047 ≤ 4 * 2 ^ p / 5) :
    ∃ y : (Fin N → Fin (2 ^ 64)) → ℚ,
      (∀ h, later (Plus.api cfg ln c) ords (ops.map (withHashes h)) [.count i] =
        .ok [.count (fin (y h))]) ∧
      √(mean fun h => ((y h : ℝ) - V.card) ^ 2) ≤ (1 / 2 ^ 12 + 1.19 * V.card / 2 ^ 25) * V.card := by
  have h2 := received_le hV
  obtain ⟨F, hF, hl⟩ := plus_variable (ords := ords) hln c hs hV h1
  refine ⟨_, hl, Real.sqrt_le_iff.2 ⟨by positivity, ?_⟩⟩
  rw [mean_restrict V 64 fun S => ((F S : ℝ) - V.card) ^ 2]
  generalize V.card = n at *
  rcases Nat.lt_or_ge n 2 with h | hn2
  · obtain rfl : n = 1 := by omega
    have : mean (fun h : Fin 1 → Fin (2 ^ 64) => ((F (hashSet 64 h) : ℝ) - (1 : ℕ)) ^ 2) ≤
        (1 / 2 ^ 23) ^ 2 := by
      rw [← mean_const (n := 1) ((1 / 2 ^ 23) ^ 2)]
      refine mean_mono fun h => ?_
      have := (plus_few hln cfg.search h2 (hashSet_lt' 64 h) (hashSet_nonempty' 64 le_rfl h)
        (hashSet_card_le' 64 h) hn (hF _)).2.2 rfl
      rw [Nat.cast_one, ← sq_abs]
      exact pow_le_pow_left₀ (abs_nonneg _) this 2
    refine this.trans ?_
    norm_num
  · refine (plus_square_few hln cfg.search h2 hn2 hn fun g => hF _).trans ?_
    have h0 : (0 : ℝ) ≤ n := by positivity
    have h3 : (0 : ℝ) ≤ (n : ℝ) ^ 3 := by positivity
    have h4 : (0 : ℝ) ≤ (n : ℝ) ^ 4 := by positivity
    have e : ((1 / 2 ^ 12 + 1.19 * (n : ℝ) / 2 ^ 25) * n) ^ 2 =
        n ^ 2 / 2 ^ 24 + 2.38 * n ^ 3 / 2 ^ 37 + 1.4161 * n ^ 4 / 2 ^ 50 := by ring
    have e2 : (n : ℝ) * (2 * n - 1) / 2 ^ 25 + 1.4 * n ^ 4 / 2 ^ 50 =
        n ^ 2 / 2 ^ 24 - n / 2 ^ 25 + 1.4 * n ^ 4 / 2 ^ 50 := by ring
    rw [e, e2]
    generalize (n : ℝ) ^ 4 = a at *
    generalize (n : ℝ) ^ 3 = b at *
    norm_num
    linarith

/-- **C79**, `HyperLogLogPF`: run any program, with random hashes.  If sketch `j` has precision `p`, `m = 2^p`,
and received exactly the values `V'`, and `n = |V'|` is at least 2 and at most `0.27 m`, then `count` on it
always returns a number, and the root mean square of its error is at least `0.47 √(n(n-1)/m)`. -/
theorem C79_pf_few_values (hln : LnSpec ln) (c : Serde.Codec (Fin N'))
    (hs : ∀ h, Supported cfg c (ops'.map (withHashes h)))
    (hV : (received 16 ops')[j]? = some (p, V')) (h1 : 4 ≤ p) (hn2 : 2 ≤ V'.card)
    (hn : 100 * V'.card ≤ 27 * 2 ^ p) :
    ∃ z : (Fin N' → Fin (2 ^ 64)) → ℚ,
      (∀ h, later (PF.api cfg ln c) ords (ops'.map (withHashes h)) [.count j] =
        .ok [.count (fin (z h))]) ∧
      0.47 * √(V'.card * (V'.card - 1) / 2 ^ p) ≤ √(mean fun h => ((z h : ℝ) - V'.card) ^ 2) := by
  have h2 := received_le hV
  obtain ⟨F, hF, hl⟩ := pf_variable_few (ords := ords) hln c hs hV h1 hn
  refine ⟨_, hl, ?_⟩
  rw [mean_restrict V' 32 fun S => ((F S : ℝ) - V'.card) ^ 2]
  generalize V'.card = n at *
  have key := pf_square_ge hln h1 h2 hn2 hn
    (y := fun g => F (hashSet 32 g)) (fun g => hF _ (hashSet_lt' 32 g) (hashSet_card_le' 32 g))
  apply Real.le_sqrt_of_sq_le
  refine le_trans ?_ key
  have hm : (0 : ℝ) < 2 ^ p := by positivity
  have hnr : 100 * (n : ℝ) ≤ 27 * 2 ^ p := by exact_mod_cast hn
  have hn2r : (2 : ℝ) ≤ n := by exact_mod_cast hn2
  have hB : (0 : ℝ) ≤ (n : ℝ) * (n - 1) / 2 ^ p := by
    have : (0 : ℝ) ≤ n - 1 := by linarith
    positivity
  have hb : 0.46 ≤ 1 - 2 * (n : ℝ) / 2 ^ p := by
    have : 2 * (n : ℝ) / 2 ^ p ≤ 0.54 := by rw [div_le_iff₀ hm]; linarith
    linarith
  rw [mul_pow, Real.sq_sqrt hB]
  have e : (n : ℝ) * (n - 1) / (2 * 2 ^ p) = 0.5 * (n * (n - 1) / 2 ^ p) := by ring
  rw [e]
  generalize (n : ℝ) * (n - 1) / 2 ^ p = B at *
  nlinarith

/-- **C79**, the comparison: run any program on sketches of type `HyperLogLogPlus`, and any program on
sketches of type `HyperLogLogPF`, with random hashes.  If sketch `i` of the first and sketch `j` of the
second have the same precision `p` and received the same number `n ≥ 1` of distinct values, so small that
the former is certainly sparse, then both counts are always numbers, and the root mean square of the
error of the former is at most 40 % of that of the latter. -/
theorem C79_small_cardinalities (hln : LnSpec ln) (c : Serde.Codec (Fin N)) (c' : Serde.Codec (Fin N'))
    (hs : ∀ h, Supported cfg c (ops.map (withHashes h)))
    (hs' : ∀ h, Supported cfg' c' (ops'.map (withHashes h)))
    (hV : (received 18 ops)[i]? = some (p, V)) (hV' : (received 16 ops')[j]? = some (p, V'))
    (hVV : V'.card = V.card) (h1 : 4 ≤ p) (hn1 : 1 ≤ V.card)
    (hn : 5 * V.card ≤ 4 * 2 ^ p / 5 ∨ 4 * V.card + 15 ≤ 4 * 2 ^ p / 5 ∨
      3 * V.card + 2047 ≤ 4 * 2 ^ p / 5) :
    ∃ (y : (Fin N → Fin (2 ^ 64)) → ℚ) (z : (Fin N' → Fin (2 ^ 64)) → ℚ),
      (∀ h, later (Plus.api cfg ln c) ords (ops.map (withHashes h)) [.count i] =
        .ok [.count (fin (y h))]) ∧
      (∀ h, later (PF.api cfg' ln c') ords' (ops'.map (withHashes h)) [.count j] =
        .ok [.count (fin (z h))]) ∧
      √(mean fun h => ((y h : ℝ) - V.card) ^ 2) ≤ 0.4 * √(mean fun h => ((z h : ℝ) - V.card) ^ 2) := by
  have h2 := received_le hV'
  obtain ⟨hc1, -⟩ := few_card (by omega : p ≤ 18) hn
  obtain ⟨F, hF, hl⟩ := plus_variable (ords := ords) hln c hs hV h1
  obtain ⟨G, hG, hl'⟩ := pf_variable_few (ords := ords') hln c' hs' hV' h1 (by omega)
  refine ⟨_, _, hl, hl', ?_⟩
  rw [mean_restrict V 64 fun S => ((F S : ℝ) - V.card) ^ 2,
    mean_restrict V' 32 fun S => ((G S : ℝ) - V.card) ^ 2, hVV]
  rw [hVV] at hG
  generalize V.card = n at *
  have key := square_compare hln cfg.search h1 h2 hn1 hn (y := fun g => F (hashSet 64 g))
    (z := fun g => G (hashSet 32 g)) (fun g => hF _)
    (fun g => hG _ (hashSet_lt' 32 g) (hashSet_card_le' 32 g))
  have e : (0.4 : ℝ) = √0.16 := by
    rw [show (0.16 : ℝ) = 0.4 ^ 2 by norm_num, Real.sqrt_sq (by norm_num)]
  rw [e, ← Real.sqrt_mul (by norm_num)]
  exact Real.sqrt_le_sqrt key

/-- An instance: the same program with sketches of either type with `2^14` registers.  Two sketches have
2000 values each, half of them shared, and are merged.  The standard error of the count of the 3000
distinct values is at most 1.06 with `HyperLogLogPlus`, and at least 11 with `HyperLogLogPF`. -/
example (hln : LnSpec ln) :
    (∃ y : (Fin (3 * 1000) → Fin (2 ^ 64)) → ℚ,
      (∀ h, later (Plus.api Cfg.debug64 ln (noCodec _)) ords ((twoSites 1000).map (withHashes h))
        [.count 0] = .ok [.count (fin (y h))]) ∧
      √(mean fun h => ((y h : ℝ) - (3000 : ℕ)) ^ 2) ≤ 1.06) ∧
    ∃ z : (Fin (3 * 1000) → Fin (2 ^ 64)) → ℚ,
      (∀ h, later (PF.api Cfg.debug64 ln (noCodec _)) ords ((twoSites 1000).map (withHashes h))
        [.count 0] = .ok [.count (fin (z h))]) ∧
      11 ≤ √(mean fun h => ((z h : ℝ) - (3000 : ℕ)) ^ 2) := by
  have hcard : (Finset.univ : Finset (Fin (3 * 1000))).card = 3000 := by
    rw [Finset.card_univ, Fintype.card_fin]
  have hs := fun h => supported64 (cfg := Cfg.debug64) rfl (noCodec _) (twoSites_reload 1000 h)
  obtain ⟨y, e1, e2⟩ := C79_plus_few_values (ords := ords) (cfg := Cfg.debug64) hln (noCodec _) hs
    (received_twoSites 1000 (by norm_num)) (by norm_num) (by rw [hcard]; norm_num)
    (by rw [hcard]; norm_num)
  obtain ⟨z, f1, f2⟩ := C79_pf_few_values (ords := ords) (cfg := Cfg.debug64) hln (noCodec _) hs
    (received_twoSites 1000 (by norm_num)) (by norm_num) (by rw [hcard]; norm_num)
    (by rw [hcard]; norm_num)
  rw [hcard] at e2 f2
  refine ⟨⟨y, e1, e2.trans (by norm_num)⟩, ⟨z, f1, le_trans ?_ f2⟩⟩
  have : 23.42 ≤ √(((3000 : ℕ) : ℝ) * ((3000 : ℕ) - 1) / 2 ^ 14) := Real.le_sqrt_of_sq_le (by norm_num)
  norm_num at this ⊢
  linarith

/-- The comparison for the same program. -/
example (hln : LnSpec ln) : ∃ y z : (Fin (3 * 1000) → Fin (2 ^ 64)) → ℚ,
    (∀ h, later (Plus.api Cfg.debug64 ln (noCodec _)) ords ((twoSites 1000).map (withHashes h))
      [.count 0] = .ok [.count (fin (y h))]) ∧
    (∀ h, later (PF.api Cfg.debug64 ln (noCodec _)) ords ((twoSites 1000).map (withHashes h))
      [.count 0] = .ok [.count (fin (z h))]) ∧
    √(mean fun h => ((y h : ℝ) - (3000 : ℕ)) ^ 2) ≤ 0.4 * √(mean fun h => ((z h : ℝ) - (3000 : ℕ)) ^ 2) := by
  have hcard : (Finset.univ : Finset (Fin (3 * 1000))).card = 3000 := by
    rw [Finset.card_univ, Fintype.card_fin]
  have hs := fun h => supported64 (cfg := Cfg.debug64) rfl (noCodec _) (twoSites_reload 1000 h)
  have := C79_small_cardinalities (ords := ords) (ords' := ords) (cfg := Cfg.debug64) hln (noCodec _)
    (noCodec _) hs hs (received_twoSites 1000 (by norm_num)) (received_twoSites 1000 (by norm_num)) rfl
    (by norm_num) (by rw [hcard]; norm_num) (by rw [hcard]; norm_num)
  rwa [hcard] at this

end HLL
