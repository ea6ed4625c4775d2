import Verif.Proofs.AnySquare
import Verif.Props.Similar

/-!
# C87: the standard error of `HyperLogLogPlus::count` for the small precisions

C74 needs at least `2^13` registers, as it uses that large deviations of the registers are rare.  Here
the error is bounded in terms of the deviations however large they are, which works from `2^8`
registers, and so for any number of values.
-/

namespace HLL
open Spec F64

variable {cfg : Cfg} {ln : F64 → F64} {ords : Nat → IterOrder × IterOrder} {p n N i j k : Nat}
  {ops : List (Op (Fin N))} {V A B : Finset (Fin N)}

/-- **C87**, the standard error of `HyperLogLogPlus::count` for the precisions from 8: run any program,
with random hashes.  If sketch `i` has precision `p ≥ 8` and received exactly the values `V`, and
`n = |V| ≤ 2^59`, then `count` on it always returns a number, and the root mean square of its error is
at most `(3/√m + 0.005 + 4/m) (n + 1.6 m)`. -/
theorem C87_plus_error_everywhere (hln : LnSpec ln) (c : Serde.Codec (Fin N))
    (hs : ∀ h, Supported cfg c (ops.map (withHashes h)))
    (hV : (received 18 ops)[i]? = some (p, V)) (h1 : 8 ≤ p) (hn : V.card ≤ 2 ^ 59) :
    ∃ y : (Fin N → Fin (2 ^ 64)) → ℚ,
      (∀ h, later (Plus.api cfg ln c) ords (ops.map (withHashes h)) [.count i] =
        .ok [.count (fin (y h))]) ∧
      √(mean fun h => ((y h : ℝ) - V.card) ^ 2) ≤
        (3 / √(2 ^ p) + 0.005 + 4 / 2 ^ p) * (V.card + 1.6 * 2 ^ p) := by
  obtain ⟨F, hF, hl⟩ := plus_variable (ords := ords) hln c hs hV (by omega)
  refine ⟨_, hl, Real.sqrt_le_iff.2 ⟨by positivity, ?_⟩⟩
  rw [mean_restrict V 64 fun S => ((F S : ℝ) - V.card) ^ 2]
  exact any_square hln cfg.search h1 (received_le hV) hn (y := fun g => F (hashSet 64 g)) fun g => hF _

/-- **C87**, the mean: on average over the hashes the count is within the same distance of `n`. -/
theorem C87_plus_mean (hln : LnSpec ln) (c : Serde.Codec (Fin N))
    (hs : ∀ h, Supported cfg c (ops.map (withHashes h)))
    (hV : (received 18 ops)[i]? = some (p, V)) (h1 : 8 ≤ p) (hn : V.card ≤ 2 ^ 59) :
    ∃ y : (Fin N → Fin (2 ^ 64)) → ℚ,
      (∀ h, later (Plus.api cfg ln c) ords (ops.map (withHashes h)) [.count i] =
        .ok [.count (fin (y h))]) ∧
      |mean (fun h => (y h : ℝ)) - V.card| ≤ mean (fun h => |(y h : ℝ) - V.card|) ∧
      mean (fun h => |(y h : ℝ) - V.card|) ≤
        (3 / √(2 ^ p) + 0.005 + 4 / 2 ^ p) * (V.card + 1.6 * 2 ^ p) := by
  obtain ⟨y, e1, e2⟩ := C87_plus_error_everywhere (ords := ords) hln c hs hV h1 hn
  refine ⟨y, e1, ?_, ?_⟩
  · have := abs_mean_le (f := fun h => (y h : ℝ) - V.card) (g := fun h => |(y h : ℝ) - V.card|) fun h => le_rfl
    rwa [mean_sub, mean_const] at this
  · exact mean_abs_le (by positivity) (Real.sqrt_le_iff.1 e2).2

/-- **C87**, large errors: an error of `t` times the bound has probability at most `1/t²`. -/
theorem C87_plus_rarely (hln : LnSpec ln) (c : Serde.Codec (Fin N))
    (hs : ∀ h, Supported cfg c (ops.map (withHashes h)))
    (hV : (received 18 ops)[i]? = some (p, V)) (h1 : 8 ≤ p) (hn : V.card ≤ 2 ^ 59) {t : ℝ} (ht : 0 < t) :
    fraction (fun h => ¬ ∃ y : ℚ,
      later (Plus.api cfg ln c) ords (ops.map (withHashes h)) [.count i] = .ok [.count (fin y)] ∧
      |(y : ℝ) - V.card| < t * ((3 / √(2 ^ p) + 0.005 + 4 / 2 ^ p) * (V.card + 1.6 * 2 ^ p))) ≤ 1 / t ^ 2 := by
  obtain ⟨y, e1, e2⟩ := C87_plus_error_everywhere (ords := ords) hln c hs hV h1 hn
  have hb : 0 < (3 / √((2 : ℝ) ^ p) + 0.005 + 4 / 2 ^ p) * (V.card + 1.6 * 2 ^ p) := by positivity
  generalize (3 / √((2 : ℝ) ^ p) + 0.005 + 4 / 2 ^ p) * (V.card + 1.6 * 2 ^ p) = b at *
  have h3 := (Real.sqrt_le_iff.1 e2).2
  have h4 := chebyshev (fun h => (y h : ℝ)) (V.card : ℝ) (mul_pos ht hb)
  refine le_trans (fraction_mono fun h hh => ?_) (h4.trans ?_)
  · by_contra hcon
    exact hh ⟨y h, e1 h, not_le.1 hcon⟩
  · rw [div_le_div_iff₀ (by positivity) (by positivity), mul_pow]
    nlinarith [sq_nonneg t]

/-- **C87**, set operations: C85 for the precisions from 8. -/
theorem C87_plus_rms (hln : LnSpec ln) (c : Serde.Codec (Fin N))
    (hs : ∀ h, Supported cfg c (ops.map (withHashes h)))
    (hA : (received 18 ops)[i]? = some (p, A)) (hB : (received 18 ops)[j]? = some (p, B))
    (hAB : (received 18 ops)[k]? = some (p, A ∪ B)) (h1 : 8 ≤ p) (hn : (A ∪ B).card ≤ 2 ^ 59) :
    ∃ x y z : (Fin N → Fin (2 ^ 64)) → ℚ,
      (∀ h, later (Plus.api cfg ln c) ords (ops.map (withHashes h)) [.count i, .count j, .count k] =
        .ok [.count (fin (x h)), .count (fin (y h)), .count (fin (z h))]) ∧
      √(mean fun h => ((x h : ℝ) + y h - z h - (A ∩ B).card) ^ 2) ≤
        (3 / √(2 ^ p) + 0.005 + 4 / 2 ^ p) * (A.card + B.card + (A ∪ B).card + 4.8 * 2 ^ p) ∧
      √(mean fun h => ((z h : ℝ) - y h - (A \ B).card) ^ 2) ≤
        (3 / √(2 ^ p) + 0.005 + 4 / 2 ^ p) * (B.card + (A ∪ B).card + 3.2 * 2 ^ p) := by
  have nA : A.card ≤ 2 ^ 59 := (Finset.card_le_card Finset.subset_union_left).trans hn
  have nB : B.card ≤ 2 ^ 59 := (Finset.card_le_card Finset.subset_union_right).trans hn
  obtain ⟨x, y, z, e1, e2, e3⟩ := plus_rms (ords := ords) c hs hA hB hAB
    (C87_plus_error_everywhere hln c hs hA h1 nA) (C87_plus_error_everywhere hln c hs hB h1 nB)
    (C87_plus_error_everywhere hln c hs hAB h1 hn)
  exact ⟨x, y, z, e1, e2.trans (le_of_eq (by ring)), e3.trans (le_of_eq (by ring))⟩

/-! ## Instances -/

/-- A sketch of precision `p` gets all the values, twice. -/
def twice (p N : Nat) : List (Op (Fin N)) :=
  [.new p fun _ => 0] ++ (List.finRange N).map (.insert .insert 0) ++ (List.finRange N).map (.insert .add 0)

theorem received_twice {maxP : Nat} (h1 : 4 ≤ p) (h2 : p ≤ maxP) :
    (received maxP (twice p N))[0]? = some (p, Finset.univ) := by
  unfold received twice
  simp only [List.foldl_append]
  rw [show [Op.new p fun _ => 0].foldl (receive maxP) [] = [(p, (∅ : Finset (Fin N)))] by simp [receive, h1, h2]]
  rw [receive_inserts (i := 0) maxP .insert _ [(p, ∅)] (p, ∅) rfl]
  simp only [List.set_cons_zero]
  rw [receive_inserts (i := 0) maxP .add _ [_] _ rfl]
  simp only [List.set_cons_zero, List.getElem?_cons_zero, Option.some.injEq, Prod.mk.injEq, true_and]
  ext v
  simp

theorem twice_reload (h : Fin N → Fin (2 ^ 64)) (i : Nat) : Op.reload i ∉ (twice p N).map (withHashes h) := by
  simp [twice, withHashes]

/-- Instances: a sketch with 1024 registers gets 100000 values.  The standard error of its count is at
most 10480, and in all but one of 25 cases the error is below 52400. -/
example (hln : LnSpec ln) :
    (∃ y : (Fin 100000 → Fin (2 ^ 64)) → ℚ,
      (∀ h, later (Plus.api Cfg.debug64 ln (noCodec _)) ords ((twice 10 100000).map (withHashes h))
        [.count 0] = .ok [.count (fin (y h))]) ∧
      √(mean fun h => ((y h : ℝ) - (100000 : ℕ)) ^ 2) ≤ 10480) ∧
    fraction (fun h : Fin 100000 → Fin (2 ^ 64) => ¬ ∃ y : ℚ,
      later (Plus.api Cfg.debug64 ln (noCodec _)) ords ((twice 10 100000).map (withHashes h))
        [.count 0] = .ok [.count (fin y)] ∧ |(y : ℝ) - (100000 : ℕ)| < 52400) ≤ 1 / 25 := by
  have hcard : (Finset.univ : Finset (Fin 100000)).card = 100000 := by
    rw [Finset.card_univ, Fintype.card_fin]
  have h10 : √((2 : ℝ) ^ 10) = 32 := by
    rw [show (2 : ℝ) ^ 10 = 32 ^ 2 by norm_num, Real.sqrt_sq (by norm_num)]
  constructor
  · obtain ⟨y, e1, e2⟩ := C87_plus_error_everywhere (ords := ords) (cfg := Cfg.debug64) hln (noCodec _)
      (fun h => supported64 (cfg := Cfg.debug64) rfl (noCodec _) (twice_reload h))
      (received_twice (p := 10) (N := 100000) (by norm_num) (by norm_num)) (by norm_num)
      (by rw [hcard]; norm_num)
    rw [hcard, h10] at e2
    exact ⟨y, e1, e2.trans (by norm_num)⟩
  · have h := C87_plus_rarely (ords := ords) (cfg := Cfg.debug64) hln (noCodec _)
      (fun h => supported64 (cfg := Cfg.debug64) rfl (noCodec _) (twice_reload h))
      (received_twice (p := 10) (N := 100000) (by norm_num) (by norm_num)) (by norm_num)
      (by rw [hcard]; norm_num) (t := 5) (by norm_num)
    rw [hcard, h10] at h
    refine le_trans (fraction_mono fun g hg => ?_) (h.trans (by norm_num))
    rintro ⟨y, e1, e2⟩
    exact hg ⟨y, e1, e2.trans_le (by norm_num)⟩

/-- The smallest precision covered, with linear counting or the tables depending on the hashes. -/
example (hln : LnSpec ln) : ∃ y : (Fin 600 → Fin (2 ^ 64)) → ℚ,
    (∀ h, later (Plus.api Cfg.debug64 ln (noCodec _)) ords ((twice 8 600).map (withHashes h))
      [.count 0] = .ok [.count (fin (y h))]) ∧
    |mean (fun h => (y h : ℝ)) - (600 : ℕ)| ≤ 211 := by
  have hcard : (Finset.univ : Finset (Fin 600)).card = 600 := by
    rw [Finset.card_univ, Fintype.card_fin]
  have h8 : √((2 : ℝ) ^ 8) = 16 := by
    rw [show (2 : ℝ) ^ 8 = 16 ^ 2 by norm_num, Real.sqrt_sq (by norm_num)]
  obtain ⟨y, e1, e2, e3⟩ := C87_plus_mean (ords := ords) (cfg := Cfg.debug64) hln (noCodec _)
    (fun h => supported64 (cfg := Cfg.debug64) rfl (noCodec _) (twice_reload h))
    (received_twice (p := 8) (N := 600) (by norm_num) (by norm_num)) (by norm_num) (by rw [hcard]; norm_num)
  rw [hcard] at e2 e3
  rw [h8] at e3
  exact ⟨y, e1, (e2.trans e3).trans (by norm_num)⟩

end HLL
