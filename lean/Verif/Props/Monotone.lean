import Verif.Props.Numeric
import Verif.Proofs.Monotone
import Mathlib.Analysis.Complex.ExponentialBounds

/-!
# Growth of `count` when values are added: C32

As stated the property is false for both sketches (`C32_plus_refuted`, `C32_pf_refuted`): the estimate
can drop when the code changes from one estimator to another.  The partial theorems say that this is
the only way: the code goes through its estimators in a fixed order, and as long as a sketch stays
with one of them `count` does not decrease.
-/

namespace HLL
open Spec F64

variable {I : Type} {cfg : Cfg} {ln : F64 → F64} {c : Serde.Codec I}
  {ords : Nat → IterOrder × IterOrder} {pre post : List (Op I)} {i : Nat}

/-- **C32 for `HyperLogLogPlus`.** Let a sketch hold `a` before and `b` after any further
operations.  The estimator in use only moves forward (sparse, linear counting, corrected, raw).  If it
is the same at both times, or moved from linear counting to raw, then the count does not decrease
(exactly, unless the corrected estimator is in use; there it does not decrease by more than `2^-26`).
This includes precisions 5 and 6, whose tables are not sorted: the place found by the binary search
still grows with the raw estimate.
Missing for the full claim: the other changes of estimator, where the claim is false. -/
theorem C32_plus_partial (hln : LnSpec ln) (h : Supported cfg c (pre ++ post)) {a : Abs I}
    (ha : (contents 64 18 pre)[i]? = some a) :
    ∃ b, (contents 64 18 (pre ++ post))[i]? = some b ∧
      plusRegime ln a.p a.S ≤ plusRegime ln b.p b.S ∧
      ((plusRegime ln a.p a.S = plusRegime ln b.p b.S ∨
          (plusRegime ln a.p a.S = 1 ∧ plusRegime ln b.p b.S = 3)) →
        ∃ y y' : ℚ, later (Plus.api cfg ln c) ords pre [.count i] = .ok [.count (fin y)] ∧
          later (Plus.api cfg ln c) ords (pre ++ post) [.count i] = .ok [.count (fin y')] ∧
          y ≤ y' + 1 / 2 ^ 26 ∧ (plusRegime ln a.p a.S ≠ 2 → y ≤ y')) := by
  have hv := contents_valid 64 18 pre a (mem_of_get ha)
  obtain ⟨b, hb, hp, _, hS⟩ := contentsFrom_mono 64 18 post _ ha
  have hb' : (contents 64 18 (pre ++ post))[i]? = some b := by rw [contents_append]; exact hb
  refine ⟨b, hb', ?_, fun hr => ?_⟩
  · rw [hp]; exact plusRegime_mono hln hv.1 hv.2.1 hS
  · rw [hp] at hr
    obtain ⟨y, y', k1, k2, k3, k4⟩ := plusCount_mono (v := cfg.search) hln hv.1 hv.2.1 hS hr
    refine ⟨y, y', ?_, ?_, k3, k4⟩
    · rw [plus_count_val (h.of_subset (fun p b hp => by simp [hp]) (fun i hi => ⟨i, by simp [hi]⟩)) ha, k1]
    · rw [plus_count_val h hb', hp, k2]

/-- **C32 for `HyperLogLogPF`.** As above; the estimators are linear counting, raw and large
range.  The count does not decrease as long as the raw estimate stays below `2^32` (beyond, it is not a
number, see C27) and the estimator does not change from linear counting to raw.  While the large range
estimator is in use the error of the logarithm is visible: there the count does not decrease by more
than a factor `1 + 2^-37`. -/
theorem C32_pf_partial (hln : LnSpec ln) (h : Supported cfg c (pre ++ post)) {a : Abs I}
    (ha : (contents 32 16 pre)[i]? = some a) :
    ∃ b, (contents 32 16 (pre ++ post))[i]? = some b ∧
      pfRegime a.p a.S ≤ pfRegime b.p b.S ∧
      (¬ (pfRegime a.p a.S = 1 ∧ pfRegime b.p b.S = 2) →
        ∀ raw : ℚ, rawEstimate b.p (regs 32 b.p b.S) = fin raw → raw < 2 ^ 32 →
        ∃ y y' : ℚ, later (PF.api cfg ln c) ords pre [.count i] = .ok [.count (fin y)] ∧
          later (PF.api cfg ln c) ords (pre ++ post) [.count i] = .ok [.count (fin y')] ∧
          y ≤ y' * (1 + 1 / 2 ^ 37) ∧ (pfRegime a.p a.S ≠ 3 → y ≤ y')) := by
  have hv := contents_valid 32 16 pre a (mem_of_get ha)
  obtain ⟨b, hb, hp, _, hS⟩ := contentsFrom_mono 32 16 post _ ha
  have hb' : (contents 32 16 (pre ++ post))[i]? = some b := by rw [contents_append]; exact hb
  refine ⟨b, hb', ?_, fun hr raw h1 h2 => ?_⟩
  · rw [hp]; exact pfRegime_mono hv.1 hv.2.1 hS
  · rw [hp] at hr h1
    have hM : Regs a.p (regs 32 a.p b.S) := regs_regs _ (by omega)
    rw [hM.raw_eq hv.1 (by omega)] at h1
    cases h1
    obtain ⟨y, y', k1, k2, k3, k4⟩ := pfCount_mono hln hv.1 hv.2.1 hS h2 hr
    refine ⟨y, y', ?_, ?_, k3, k4⟩
    · rw [pf_count_val (h.of_subset (fun p b hp => by simp [hp]) (fun i hi => ⟨i, by simp [hi]⟩)) ha, k1]
    · rw [pf_count_val h hb', hp, k2]

/-! ## The property is false as stated -/

/-- Insert `n` values with hashes `0·2^60 + 2^59`, `1·2^60 + 2^59`, … into a sketch of precision 4. -/
def stepPlus (n : Nat) : List (Op Nat) :=
  .new 4 (fun v => BitVec.ofNat 64 (v * 2 ^ 60 + 2 ^ 59)) ::
    (List.range n).map fun v => .insert .insert 0 v

/-- The same with 32-bit hashes (for the first sixteen values). -/
def stepPF (n : Nat) : List (Op Nat) :=
  .new 4 (fun v => BitVec.ofNat 64 (v * 2 ^ 28 + 2 ^ 27 + v / 16)) ::
    (List.range n).map fun v => .insert .insert 0 v

theorem stepPlus_contents (n : Nat) (hn : n = 7 ∨ n = 8) :
    ∃ a, (contents 64 18 (stepPlus n))[0]? = some a ∧ a.p = 4 ∧
      regs 64 4 a.S = List.replicate n 1 ++ List.replicate (16 - n) 0 ∧ ¬ fitsSparse 4 a.S := by
  rcases hn with rfl | rfl
  all_goals
    refine ⟨_, rfl, rfl, by decide +kernel, ?_⟩
    intro hf
    have h2 := (encSize_mono (C := [2097152, 6291456, 10485760, 14680064].toFinset)
      (D := codes 4 _) (by decide +kernel)).trans hf
    revert h2
    rw [encSize, (List.toFinset_sort (· ≤ ·) (by decide)).2 (by decide)]
    decide +kernel

theorem stepPF_contents (n : Nat) (hn : n = 15 ∨ n = 16) :
    ∃ a, (contents 32 16 (stepPF n))[0]? = some a ∧ a.p = 4 ∧
      regs 32 4 a.S = List.replicate n 1 ++ List.replicate (16 - n) 0 := by
  rcases hn with rfl | rfl
  all_goals exact ⟨_, rfl, rfl, by decide +kernel⟩

theorem supported_stepPlus (n : Nat) : Supported Cfg.debug64 (noCodec Nat) (stepPlus n) :=
  supported64 rfl _ (by simp [stepPlus])

theorem supported_stepPF (n : Nat) : Supported Cfg.debug64 (noCodec Nat) (stepPF n) :=
  supported64 rfl _ (by simp [stepPF])

/-- The hypotheses of `C32_plus_partial` are met by a sketch that stays sparse … -/
example (ln : F64 → F64) : ∃ a b,
    (contents 64 18 (stepPlus 0))[0]? = some a ∧ (contents 64 18 (stepPlus 0 ++ [.insert .insert 0 3]))[0]? = some b ∧
    a.S ≠ b.S ∧ plusRegime ln a.p a.S = plusRegime ln b.p b.S := by
  have h1 : fitsSparse 4 (∅ : Finset Nat) := by
    rw [fitsSparse, codes, Finset.image_empty, encSize, Finset.sort_empty]; decide
  have h2 : fitsSparse 4 ({3 * 2 ^ 60 + 2 ^ 59} : Finset Nat) := by
    rw [fitsSparse, codes, Finset.image_singleton, encSize, Finset.sort_singleton]; decide +kernel
  refine ⟨_, _, rfl, rfl, by decide, ?_⟩
  have e : (insert (BitVec.ofNat 64 (3 * 2 ^ 60 + 2 ^ 59)).toNat ∅ : Finset Nat) = {3 * 2 ^ 60 + 2 ^ 59} := by decide
  unfold plusRegime
  simp only
  rw [if_pos h1, if_pos]
  exact e ▸ h2

/-- … and those of `C32_pf_partial` by one that stays with the raw estimate and gains a hash. -/
example : ∃ a b raw, (contents 32 16 (stepPF 16))[0]? = some a ∧
    (contents 32 16 (stepPF 16 ++ [.insert .insert 0 16]))[0]? = some b ∧
    a.S ≠ b.S ∧ pfRegime a.p a.S = 2 ∧ pfRegime b.p b.S = 2 ∧
    rawEstimate b.p (regs 32 b.p b.S) = fin raw ∧ raw < 2 ^ 32 :=
  ⟨_, _, (rawEstimate 4 (List.replicate 16 1)).val, rfl, rfl, by decide, by decide +kernel, by decide +kernel,
    by decide +kernel, by decide +kernel⟩

/-- **C32 is false for `HyperLogLogPlus`:** the eighth value lowers the count from at least
`6.999` to less than `6.97`. -/
theorem C32_plus_refuted (hln : LnSpec ln) {cfg : Cfg} (hcfg : cfg.usizeBits = 64) :
    ∃ v, stepPlus 8 = stepPlus 7 ++ [.insert .insert 0 v] ∧ ∃ y y' : ℚ,
      later (Plus.api cfg ln (noCodec Nat)) ords (stepPlus 7) [.count 0] = .ok [.count (fin y)] ∧
      later (Plus.api cfg ln (noCodec Nat)) ords (stepPlus 8) [.count 0] = .ok [.count (fin y')] ∧
      y' < y := by
  refine ⟨7, rfl, ?_⟩
  obtain ⟨a, ha, hap, haM, haf⟩ := stepPlus_contents 7 (Or.inl rfl)
  obtain ⟨b, hb, hbp, hbM, hbf⟩ := stepPlus_contents 8 (Or.inr rfl)
  have hl2 := Real.log_two_gt_d9
  -- seven values: linear counting
  obtain ⟨y, l1, _, l2⟩ := linear_approx hln (m := 16) (V := 9) (by norm_num) (by norm_num) (by norm_num)
  have hlo : (7 : ℝ) / 16 ≤ Real.log (((16 : ℕ) : ℝ) / ((9 : ℕ) : ℝ)) := by
    have := Real.one_sub_inv_le_log_of_pos (x := 16 / 9) (by norm_num)
    norm_num at this ⊢
    linarith
  have hhi : Real.log (((16 : ℕ) : ℝ) / ((9 : ℕ) : ℝ)) ≤ 2 * (1 / 6 + 1 / 7) := by
    have e : ((16 : ℕ) : ℝ) / ((9 : ℕ) : ℝ) = ((7 / 6) * (8 / 7)) ^ 2 := by norm_num
    rw [e, Real.log_pow, Real.log_mul (by norm_num) (by norm_num)]
    have h1 := Real.log_le_sub_one_of_pos (x := 7 / 6) (by norm_num)
    have h2 := Real.log_le_sub_one_of_pos (x := 8 / 7) (by norm_num)
    push_cast
    linarith
  generalize Real.log (((16 : ℕ) : ℝ) / ((9 : ℕ) : ℝ)) = L at *
  obtain ⟨l3, l4⟩ := abs_le.1 l2
  have hy1 : (6.999 : ℝ) ≤ y := by norm_num at l3 l4 ⊢; linarith
  have hy2 : (y : ℝ) ≤ 10 := by norm_num at l3 l4 ⊢; linarith
  have hy1' : (6.999 : ℚ) ≤ y := by
    have : ((6.999 : ℚ) : ℝ) ≤ y := by norm_num at hy1 ⊢; exact hy1
    exact_mod_cast this
  have hy2' : y ≤ 10 := by exact_mod_cast hy2
  -- eight values: the corrected estimate
  obtain ⟨z, m1, _, m2⟩ := linear_approx hln (m := 16) (V := 8) (by norm_num) (by norm_num) (by norm_num)
  have e2 : (((16 : ℕ) : ℝ) / ((8 : ℕ) : ℝ)) = 2 := by norm_num
  rw [e2] at m2
  generalize Real.log 2 = L2 at *
  obtain ⟨m3, _⟩ := abs_le.1 m2
  have hz : (10 : ℝ) < z := by norm_num at m3 hl2 ⊢; linarith
  have hz' : 10 < z := by exact_mod_cast hz
  have hcor : le (rawEstimate 4 (List.replicate 8 1 ++ List.replicate (16 - 8) 0)) (num (5 * 2 ^ 4)) = true ∧
      ∃ y' : ℚ, sub (rawEstimate 4 (List.replicate 8 1 ++ List.replicate (16 - 8) 0))
        (Plus.biasOf cfg.search 4 (rawEstimate 4 (List.replicate 8 1 ++ List.replicate (16 - 8) 0))) = fin y' ∧ y' < 6.97 :=
    ⟨by decide +kernel, 7841127152946371 / 1125899906842624, by cases cfg.search <;> decide +kernel, by norm_num⟩
  obtain ⟨hc1, y', hc2, hc3⟩ := hcor
  refine ⟨y, y', ?_, ?_, by linarith⟩
  · rw [plus_count_val (supported64 hcfg _ (by simp [stepPlus])) ha, hap, plusCount, if_neg haf, haM, plusDense]
    have hV : List.count 0 (List.replicate 7 1 ++ List.replicate (16 - 7) 0) = 9 := by decide
    have hc : List.count 0 (List.replicate 7 1 ++ List.replicate (16 - 7) 0) ≠ 0 ∧
        le (linear ln (2 ^ 4) (List.count 0 (List.replicate 7 1 ++ List.replicate (16 - 7) 0)))
          (num (threshold 4)) = true := by
      rw [hV]
      refine ⟨by norm_num, ?_⟩
      rw [show 2 ^ 4 = 16 from rfl, l1, show threshold 4 = 10 from rfl, num, le_fin]
      exact_mod_cast hy2'
    rw [if_pos hc, hV, show 2 ^ 4 = 16 from rfl, l1]
  · rw [plus_count_val (supported64 hcfg _ (by simp [stepPlus])) hb, hbp, plusCount, if_neg hbf, hbM, plusDense]
    have hV : List.count 0 (List.replicate 8 1 ++ List.replicate (16 - 8) 0) = 8 := by decide
    have hc : ¬ (List.count 0 (List.replicate 8 1 ++ List.replicate (16 - 8) 0) ≠ 0 ∧
        le (linear ln (2 ^ 4) (List.count 0 (List.replicate 8 1 ++ List.replicate (16 - 8) 0)))
          (num (threshold 4)) = true) := by
      rw [hV]
      rintro ⟨_, h⟩
      rw [show 2 ^ 4 = 16 from rfl, m1, show threshold 4 = 10 from rfl, num, le_fin] at h
      norm_num at h
      linarith
    rw [if_neg hc, if_pos hc1, hc2]

/-- **C32 is false for `HyperLogLogPF`:** the sixteenth value lowers the count from more than `44` to
less than `22`. -/
theorem C32_pf_refuted (hln : LnSpec ln) :
    ∃ v, stepPF 16 = stepPF 15 ++ [.insert .insert 0 v] ∧ ∃ y y' : ℚ,
      later (PF.api Cfg.debug64 ln (noCodec Nat)) ords (stepPF 15) [.count 0] = .ok [.count (fin y)] ∧
      later (PF.api Cfg.debug64 ln (noCodec Nat)) ords (stepPF 16) [.count 0] = .ok [.count (fin y')] ∧
      44 < y ∧ y' < 22 := by
  refine ⟨15, rfl, ?_⟩
  obtain ⟨a, ha, hap, haM⟩ := stepPF_contents 15 (Or.inl rfl)
  obtain ⟨b, hb, hbp, hbM⟩ := stepPF_contents 16 (Or.inr rfl)
  have hl2 := Real.log_two_gt_d9
  obtain ⟨y, l1, _, l2⟩ := linear_approx hln (m := 16) (V := 1) (by norm_num) (by norm_num) (by norm_num)
  have hlog : Real.log (((16 : ℕ) : ℝ) / ((1 : ℕ) : ℝ)) = 4 * Real.log 2 := by
    rw [show ((16 : ℕ) : ℝ) / ((1 : ℕ) : ℝ) = 2 ^ 4 by norm_num, Real.log_pow]; norm_num
  rw [hlog] at l2
  generalize Real.log 2 = L at *
  obtain ⟨l3, l4⟩ := abs_le.1 l2
  have hy1 : (44 : ℝ) < y := by norm_num at l3 hl2 ⊢; linarith
  have hy1' : (44 : ℚ) < y := by exact_mod_cast hy1
  have hr15 : le (rawEstimate 4 (List.replicate 15 1 ++ List.replicate (16 - 15) 0))
      (mul (ofDec 25 1) (num (2 ^ 4))) = true := by decide +kernel
  have hr16 : gt (rawEstimate 4 (List.replicate 16 1 ++ List.replicate (16 - 16) 0))
      (div (num (2 ^ 32)) (num 30)) = false ∧
      rawEstimate 4 (List.replicate 16 1 ++ List.replicate (16 - 16) 0) =
        fin (rawEstimate 4 (List.replicate 16 1 ++ List.replicate (16 - 16) 0)).val ∧
      (rawEstimate 4 (List.replicate 16 1 ++ List.replicate (16 - 16) 0)).val < 22 := by decide +kernel
  refine ⟨y, (rawEstimate 4 (List.replicate 16 1 ++ List.replicate (16 - 16) 0)).val, ?_, ?_, hy1', hr16.2.2⟩
  · rw [pf_count_val (supported_stepPF 15) ha, hap, pfCount, haM, pfDense]
    have hV : List.count 0 (List.replicate 15 1 ++ List.replicate (16 - 15) 0) = 1 := by decide
    rw [if_pos ⟨hr15, by rw [hV]; norm_num⟩, hV, show 2 ^ 4 = 16 from rfl, l1]
  · rw [pf_count_val (supported_stepPF 16) hb, hbp, pfCount, hbM, pfDense]
    have hV : List.count 0 (List.replicate 16 1 ++ List.replicate (16 - 16) 0) = 0 := by decide
    rw [if_neg (fun h => h.2 hV), hr16.1, if_neg (by decide)]
    exact congrArg (fun x => Except.ok [Out.count x]) hr16.2.1

end HLL
