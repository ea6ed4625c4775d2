import Verif.Proofs.PFError
import Verif.Props.AnyError

/-! # C88: the standard error of `HyperLogLogPF::count` -/

namespace HLL
open Spec F64 Finset Exps

variable {cfg : Cfg} {ln : F64 → F64} {ords : Nat → IterOrder × IterOrder} {p N i j k : Nat} {δ : ℝ}
  {ops : List (Op (Fin N))} {V A B : Finset (Fin N)}

/-- **C88**, counts that are numbers: run any program, with random hashes.  If sketch `i` is a `HyperLogLogPF`
of precision `p ≥ 8` and received at most `2^26` values, then `count` on it returns a number except with
probability at most `exp(-0.078 m)`. -/
theorem C88_pf_number (hln : LnSpec ln) (c : Serde.Codec (Fin N))
    (hs : ∀ h, Supported cfg c (ops.map (withHashes h)))
    (hV : (received 16 ops)[i]? = some (p, V)) (h1 : 8 ≤ p) (hn : V.card ≤ 2 ^ 26) :
    fraction (fun h : Fin N → Fin (2 ^ 64) => ¬ ∃ y : ℚ,
      later (PF.api cfg ln c) ords (ops.map (withHashes h)) [.count i] = .ok [.count (fin y)]) ≤
      Real.exp (-(0.078 * 2 ^ p)) := by
  have key := pf_finite_tail hln h1 (received_le hV) hn
  rw [← fraction_restrict V 32 fun S => ¬ ∃ y : ℚ, pfCount ln p S = fin y] at key
  refine le_trans (fraction_mono fun h hh => ?_) key
  rintro ⟨y, e⟩
  refine hh ⟨y, ?_⟩
  have hc : (contents 32 16 (ops.map (withHashes h)))[i]? = some (meaning 32 h (p, V)) := by
    rw [contents_meaning, List.getElem?_map, hV]; rfl
  rw [pf_count_val (hs h) hc]
  simp only [meaning]
  rw [e]

/-- **C88**, the standard error of `HyperLogLogPF::count`: run any program, with random hashes.  If sketch `i`
has precision `p ≥ 13` and received exactly the values `V`, `n = |V| ≤ 2^26`, then `count` on it returns a number
except with probability at most `exp(-0.078 m)`; and the root mean square of the error, where it returns a number
`y` and with 0 where it does not, is at most `(2.25/√m + 0.005 + 4/m) (n + 1.6 m)`, plus `0.11 m` if `n > 2 m`. -/
theorem C88_pf_standard_error (hln : LnSpec ln) (c : Serde.Codec (Fin N))
    (hs : ∀ h, Supported cfg c (ops.map (withHashes h)))
    (hV : (received 16 ops)[i]? = some (p, V)) (h1 : 13 ≤ p) (hn : V.card ≤ 2 ^ 26) :
    ∃ y : (Fin N → Fin (2 ^ 64)) → ℚ,
      (∀ h q, later (PF.api cfg ln c) ords (ops.map (withHashes h)) [.count i] = .ok [.count (fin q)] → y h = q) ∧
      fraction (fun h => ¬ later (PF.api cfg ln c) ords (ops.map (withHashes h)) [.count i] =
        .ok [.count (fin (y h))]) ≤ Real.exp (-(0.078 * 2 ^ p)) ∧
      √(mean fun h => ((y h : ℝ) - V.card) ^ 2) ≤
        (2.25 / √(2 ^ p) + 0.005 + 4 / 2 ^ p) * (V.card + 1.6 * 2 ^ p) +
          (if V.card ≤ 2 * 2 ^ p then 0 else 0.11 * 2 ^ p) := by
  have h2 := received_le hV
  set F : Finset Nat → ℚ := fun S => match pfCount ln p S with | fin q => q | _ => V.card with hF
  have hval : ∀ {S q}, pfCount ln p S = fin q → F S = q := fun {S q} e => by simp only [hF, e]
  have hor : ∀ S, pfCount ln p S = fin (F S) ∨ F S = V.card := by
    intro S
    cases e : pfCount ln p S with
    | fin q => left; rw [hval e]
    | _ => right; simp only [hF, e]
  have hlater : ∀ h, later (PF.api cfg ln c) ords (ops.map (withHashes h)) [.count i] =
      .ok [.count (pfCount ln p (V.image fun v => (h v : Nat) % 2 ^ 32))] := by
    intro h
    have hc : (contents 32 16 (ops.map (withHashes h)))[i]? = some (meaning 32 h (p, V)) := by
      rw [contents_meaning, List.getElem?_map, hV]; rfl
    rw [pf_count_val (hs h) hc]
    rfl
  refine ⟨fun h => F (V.image fun v => (h v : Nat) % 2 ^ 32), fun h q e => ?_, ?_, ?_⟩
  · rw [hlater] at e
    exact hval (by simpa using e)
  · refine le_trans (fraction_mono fun h hh => ?_) (C88_pf_number (ords := ords) hln c hs hV (by omega) hn)
    rintro ⟨q, e⟩
    apply hh
    beta_reduce
    rw [e]
    rw [hlater] at e
    rw [hval (by simpa using e)]
  · have hx : 0 ≤ if V.card ≤ 2 * 2 ^ p then (0 : ℝ) else 0.11 * 2 ^ p := by split <;> positivity
    refine Real.sqrt_le_iff.2 ⟨by positivity, ?_⟩
    rw [mean_restrict V 32 fun S => ((F S : ℝ) - V.card) ^ 2]
    exact pf_square hln h1 h2 hn fun h => hor _

/-- **C88**, set operations with `HyperLogLogPF`: if sketches `i`, `j` and `k` of precision `p ≥ 13` received exactly the
values `A`, `B` and `A ∪ B`, then their counts are three numbers `x`, `y`, `z` except with probability at most
`3 exp(-0.078 m)`; the root mean square error of `x + y - z` as an estimate of `|A ∩ B|` is at most
`ε (|A| + |B| + |A ∪ B| + 4.8 m) + 0.33 m`, and that of `z - y` as an estimate of `|A \ B|` at most
`ε (|B| + |A ∪ B| + 3.2 m) + 0.22 m`, `ε = 2.25/√m + 0.005 + 4/m`.  (A count that is not a number enters with the right
value.) -/
theorem C88_pf_rms (hln : LnSpec ln) (c : Serde.Codec (Fin N))
    (hs : ∀ h, Supported cfg c (ops.map (withHashes h)))
    (hA : (received 16 ops)[i]? = some (p, A)) (hB : (received 16 ops)[j]? = some (p, B))
    (hAB : (received 16 ops)[k]? = some (p, A ∪ B)) (h1 : 13 ≤ p) (hn : (A ∪ B).card ≤ 2 ^ 26) :
    ∃ x y z : (Fin N → Fin (2 ^ 64)) → ℚ,
      fraction (fun h => ¬ later (PF.api cfg ln c) ords (ops.map (withHashes h)) [.count i, .count j, .count k] =
        .ok [.count (fin (x h)), .count (fin (y h)), .count (fin (z h))]) ≤ 3 * Real.exp (-(0.078 * 2 ^ p)) ∧
      (∀ h a b e, later (PF.api cfg ln c) ords (ops.map (withHashes h)) [.count i, .count j, .count k] =
        .ok [.count (fin a), .count (fin b), .count (fin e)] → x h = a ∧ y h = b ∧ z h = e) ∧
      √(mean fun h => ((x h : ℝ) + y h - z h - (A ∩ B).card) ^ 2) ≤
        (2.25 / √(2 ^ p) + 0.005 + 4 / 2 ^ p) * (A.card + B.card + (A ∪ B).card + 4.8 * 2 ^ p) + 0.33 * 2 ^ p ∧
      √(mean fun h => ((z h : ℝ) - y h - (A \ B).card) ^ 2) ≤
        (2.25 / √(2 ^ p) + 0.005 + 4 / 2 ^ p) * (B.card + (A ∪ B).card + 3.2 * 2 ^ p) + 0.22 * 2 ^ p := by
  have nA : A.card ≤ 2 ^ 26 := (Finset.card_le_card Finset.subset_union_left).trans hn
  have nB : B.card ≤ 2 ^ 26 := (Finset.card_le_card Finset.subset_union_right).trans hn
  obtain ⟨x, x1, x2, x3⟩ := C88_pf_standard_error (ords := ords) hln c hs hA h1 nA
  obtain ⟨y, y1, y2, y3⟩ := C88_pf_standard_error (ords := ords) hln c hs hB h1 nB
  obtain ⟨z, z1, z2, z3⟩ := C88_pf_standard_error (ords := ords) hln c hs hAB h1 hn
  have hc : ∀ {i : Nat} {V : Finset (Fin N)} (h : Fin N → Fin (2 ^ 64)), (received 16 ops)[i]? = some (p, V) →
      (contents 32 16 (ops.map (withHashes h)))[i]? = some (meaning 32 h (p, V)) := by
    intro i V h hV
    rw [contents_meaning, List.getElem?_map, hV]; rfl
  have hx : ∀ n : Nat, (if n ≤ 2 * 2 ^ p then (0 : ℝ) else 0.11 * 2 ^ p) ≤ 0.11 * 2 ^ p := fun n => by
    split
    · positivity
    · exact le_rfl
  have xA := hx A.card
  have xB := hx B.card
  have xU := hx (A ∪ B).card
  obtain ⟨e1, e2⟩ := card_ops A B
  refine ⟨x, y, z, ?_, fun h a b e hl => ?_, ?_, ?_⟩
  · refine le_trans (fraction_mono fun h hh => ?_) ((fraction_or _ _).trans
      ((add_le_add ((fraction_or _ _).trans (add_le_add x2 y2)) z2).trans (le_of_eq (by ring))))
    by_contra hcon
    rw [not_or, not_or, not_not, not_not, not_not] at hcon
    obtain ⟨⟨k1, k2⟩, k3⟩ := hcon
    apply hh
    rw [pf_count_val (hs h) (hc h hA)] at k1
    rw [pf_count_val (hs h) (hc h hB)] at k2
    rw [pf_count_val (hs h) (hc h hAB)] at k3
    rw [pf_three (hs h) (hc h hA) (hc h hB) (hc h hAB)]
    simp only [Except.ok.injEq, List.cons.injEq, Out.count.injEq, and_true] at k1 k2 k3 ⊢
    exact ⟨k1, k2, k3⟩
  · rw [pf_three (hs h) (hc h hA) (hc h hB) (hc h hAB)] at hl
    simp only [Except.ok.injEq, List.cons.injEq, Out.count.injEq, and_true] at hl
    obtain ⟨k1, k2, k3⟩ := hl
    refine ⟨x1 h a ?_, y1 h b ?_, z1 h e ?_⟩
    · rw [pf_count_val (hs h) (hc h hA), k1]
    · rw [pf_count_val (hs h) (hc h hB), k2]
    · rw [pf_count_val (hs h) (hc h hAB), k3]
  · have g1 := rms_add (fun h => ((x h : ℝ) - A.card) + (y h - B.card)) fun h => -((z h : ℝ) - (A ∪ B).card)
    have g2 := rms_add (fun h => (x h : ℝ) - A.card) fun h => (y h : ℝ) - B.card
    rw [rms_neg] at g1
    have e3 : ∀ h, (x h : ℝ) + y h - z h - (A ∩ B).card =
        ((x h : ℝ) - A.card) + (y h - B.card) + -((z h : ℝ) - (A ∪ B).card) := fun h => by rw [e1]; ring
    simp only [e3]
    generalize 2.25 / √((2 : ℝ) ^ p) + 0.005 + 4 / 2 ^ p = ε at *
    refine (g1.trans (add_le_add g2 le_rfl)).trans ((add_le_add (add_le_add x3 y3) z3).trans ?_)
    norm_num at xA xB xU ⊢
    linarith
  · have g1 := rms_add (fun h => (z h : ℝ) - (A ∪ B).card) fun h => -((y h : ℝ) - B.card)
    rw [rms_neg] at g1
    have e3 : ∀ h, (z h : ℝ) - y h - (A \ B).card =
        ((z h : ℝ) - (A ∪ B).card) + -((y h : ℝ) - B.card) := fun h => by rw [e2]; ring
    simp only [e3]
    generalize 2.25 / √((2 : ℝ) ^ p) + 0.005 + 4 / 2 ^ p = ε at *
    refine g1.trans ((add_le_add z3 y3).trans ?_)
    norm_num at xB xU ⊢
    linarith

/-- An instance: a `HyperLogLogPF` with `2^14` registers gets a million values, each of them twice.  Its count is a
number except with probability at most `exp(-1277)`, and its standard error is at most 25400. -/
example (hln : LnSpec ln) :
    ∃ y : (Fin 1000000 → Fin (2 ^ 64)) → ℚ,
      fraction (fun h => ¬ later (PF.api Cfg.debug64 ln (noCodec _)) ords ((twice 14 1000000).map (withHashes h))
        [.count 0] = .ok [.count (fin (y h))]) ≤ Real.exp (-1277) ∧
      √(mean fun h => ((y h : ℝ) - (1000000 : ℕ)) ^ 2) ≤ 25400 := by
  have hcard : (Finset.univ : Finset (Fin 1000000)).card = 1000000 := by
    rw [Finset.card_univ, Fintype.card_fin]
  have h14 : √((2 : ℝ) ^ 14) = 128 := by
    rw [show (2 : ℝ) ^ 14 = 128 ^ 2 by norm_num, Real.sqrt_sq (by norm_num)]
  obtain ⟨y, -, e1, e2⟩ := C88_pf_standard_error (ords := ords) (cfg := Cfg.debug64) hln (noCodec _)
    (fun h => supported64 (cfg := Cfg.debug64) rfl (noCodec _) (twice_reload h))
    (received_twice (p := 14) (N := 1000000) (by norm_num) (by norm_num)) (by norm_num)
    (by rw [hcard]; norm_num)
  rw [hcard, h14] at e2
  refine ⟨y, e1.trans (Real.exp_le_exp.2 (by norm_num)), e2.trans ?_⟩
  rw [if_neg (by norm_num)]
  norm_num

/-- An instance for the set operations: two sketches with 400000 values each, 200000 of them in both, and a
third into which both were merged. -/
example (hln : LnSpec ln) : ∃ x y z : (Fin (3 * 200000) → Fin (2 ^ 64)) → ℚ,
    fraction (fun h => ¬ later (PF.api Cfg.debug64 ln (noCodec _)) ords ((threeSets 200000).map (withHashes h))
      [.count 0, .count 1, .count 2] = .ok [.count (fin (x h)), .count (fin (y h)), .count (fin (z h))]) ≤
      3 * Real.exp (-1277) ∧
    √(mean fun h => ((x h : ℝ) + y h - z h - (200000 : ℕ)) ^ 2) ≤ 40000 := by
  obtain ⟨c1, c2, c3, c4⟩ := card_threeSets 200000
  have hr := received_threeSets 200000 (maxP := 16) (by norm_num)
  have h14 : √((2 : ℝ) ^ 14) = 128 := by
    rw [show (2 : ℝ) ^ 14 = 128 ^ 2 by norm_num, Real.sqrt_sq (by norm_num)]
  obtain ⟨x, y, z, e1, -, e2, -⟩ := C88_pf_rms (ords := ords) (cfg := Cfg.debug64)
    (ops := threeSets 200000) (i := 0) (j := 1) (k := 2) (p := 14) (A := lowSet 200000)
    (B := highSet 200000) hln (noCodec _) (fun h => supported64 rfl _ (threeSets_reload 200000 h))
    (by rw [hr]; rfl) (by rw [hr]; rfl) (by rw [hr]; rfl) (by norm_num) (by omega)
  refine ⟨x, y, z, e1.trans ?_, ?_⟩
  · exact mul_le_mul_of_nonneg_left (Real.exp_le_exp.2 (by norm_num)) (by norm_num)
  · have hi : (lowSet 200000 ∩ highSet 200000).card = 200000 := by omega
    rw [hi, c1, c2, h14] at e2
    have hu : (lowSet 200000 ∪ highSet 200000).card = 600000 := by omega
    rw [hu] at e2
    refine e2.trans ?_
    norm_num

end HLL
