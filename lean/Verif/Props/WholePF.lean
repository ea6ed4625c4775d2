import Verif.Proofs.WholePF
import Verif.Props.RawAccuracy

/-!
# C56: `HyperLogLogPF::count` is accurate up to `2^32 / 30`, with a bias above `2 m`

As in C42 every assignment `h : Fin n → Fin (2^64)` of hashes to the values `0, …, n-1` is equally
likely, and `fraction P` is the probability of `P`.
-/

namespace HLL
open Spec F64 Exps

variable {cfg : Cfg} {ln : F64 → F64} {ords : Nat → IterOrder × IterOrder} {p n : Nat} {δ : ℝ}

theorem pf_raw_bad (h1 : 8 ≤ p) (h2 : p ≤ 16) (hn : n ≤ 6 * 2 ^ p) (hδ0 : 0 < δ) (hδ : δ ≤ 1 / 10) :
    fraction (fun h : Fin n → Fin (2 ^ 64) =>
        ¬ |(rawQ p (hsum 0 (regs 32 p (hashSet 32 h))) : ℝ) - centre 32 p n| ≤
          (δ + (1 + δ) / 2 ^ 32) * centre 32 p n) ≤ 1.3915 / (2 ^ p * δ ^ 2) := by
  refine le_trans (fraction_mono fun h hh => ?_)
    ((raw_deviation (p := p) (w := 32) n (by omega) (by omega) (by omega) hδ0).trans ?_)
  · by_contra hcon
    rw [not_le] at hcon
    exact hh (raw_good (by omega) (by omega) hδ0 (by omega) hcon)
  · have h3 := relVar_le (w := 32) (by omega) h1 (by omega) hn
    gcongr
    have h4 : (1 + δ) ^ 2 ≤ 1.21 := by
      have : (1 + δ) ^ 2 ≤ (1 + 1 / 10) ^ 2 := by gcongr
      norm_num at *; linarith
    calc relVar 32 p n * (1 + δ) ^ 2 ≤ 1.15 * (1 + δ) ^ 2 := by gcongr
      _ ≤ 1.15 * 1.21 := by gcongr
      _ = 1.3915 := by norm_num

theorem pf_zeros_bad (h1 : 8 ≤ p) (h2 : p ≤ 16) (hn : n ≤ 3 * 2 ^ p) (hδ0 : 0 < δ) (hδ : δ ≤ 1 / 10) :
    fraction (fun h : Fin n → Fin (2 ^ 64) =>
        zdev p n δ ≤ |(zeros 32 p (hashSet 32 h) : ℝ) - 2 ^ p * (1 - 1 / 2 ^ p) ^ n|) ≤
      2 / (2 ^ p * δ ^ 2) := by
  refine (fraction_zeros (by omega) (by omega) (by omega) n (zdev_facts h1 hδ0).1).trans ?_
  refine zeros_prob_arith3 (l := (n : ℝ) / 2 ^ p) (by positivity) ?_ (m_ge h1) (q_pos h1) (q_lower h1)
    hδ0 hδ
  rw [div_le_iff₀ (by positivity)]
  exact_mod_cast hn

theorem pf_whole_low_prob (hln : LnSpec ln) (h1 : 8 ≤ p) (h2 : p ≤ 16) (hδ0 : 0 < δ)
    (hδ : δ ≤ 1 / 10) (hn : n ≤ 6 * 2 ^ p) :
    fraction (fun h : Fin n → Fin (2 ^ 64) => ¬ ∃ y : ℚ,
        pfCount ln p (hashSet 32 h) = fin y ∧
        |(y : ℝ) - n| ≤ wholeErr p δ * (n + 1.6 * 2 ^ p) + (if n ≤ 2 * 2 ^ p then 0 else 0.11 * 2 ^ p)) ≤
      3.4 / (2 ^ p * δ ^ 2) := by
  have hmd : 0 < 2 ^ p * δ ^ 2 := by positivity
  have r := pf_raw_bad h1 h2 hn hδ0 hδ
  rcases Nat.lt_or_ge (3 * 2 ^ p) n with hn3 | hn3
  · refine le_trans (fraction_mono fun h hh => ?_) (r.trans (by gcongr; norm_num))
    intro hcon
    exact hh (pf_whole_low hln h1 h2 hδ0 hδ hn hcon (fun h3 => absurd h3 (by omega)))
  · refine le_trans (fraction_mono fun h hh => ?_) ((fraction_or _ _).trans
      ((add_le_add r (pf_zeros_bad h1 h2 hn3 hδ0 hδ)).trans ?_))
    · by_contra hcon
      rw [not_or, not_not, not_le] at hcon
      exact hh (pf_whole_low hln h1 h2 hδ0 hδ hn hcon.1 (fun _ => hcon.2))
    · rw [← add_div]; gcongr; norm_num

/-- **C56.** Insert `n` values with random hashes into a fresh `HyperLogLogPF` with `m = 2^p`
registers, `8 ≤ p ≤ 16`, and call `count`.  For `0 < δ ≤ 1/10`, if
`(1 + δ + 1.1/m + 0.001) n ≤ 2^32/30`, the result differs from `n` by at most
`(1.05 δ + 0.005 + 4/m) (n + 1.6 m)`, plus `0.11 m` if `n > 2 m`, except with probability at most
`3.4 / (m δ²)`. -/
theorem C56_pf_accuracy (hln : LnSpec ln) (hcfg : cfg.usizeBits = 64) (c : Serde.Codec (Fin n))
    (h1 : 8 ≤ p) (h2 : p ≤ 16) (hδ0 : 0 < δ) (hδ : δ ≤ 1 / 10)
    (hn : (1 + (δ + 1.1 / 2 ^ p + 0.001)) * n ≤ 2 ^ 32 / 30) :
    fraction (fun h : Fin n → Fin (2 ^ 64) => ¬ ∃ y : ℚ,
        later (PF.api cfg ln c) ords (insertAll p h) [.count 0] = .ok [.count (fin y)] ∧
        |(y : ℝ) - n| ≤ (1.05 * δ + 0.005 + 4 / 2 ^ p) * (n + 1.6 * 2 ^ p) +
          (if n ≤ 2 * 2 ^ p then 0 else 0.11 * 2 ^ p)) ≤
      3.4 / (2 ^ p * δ ^ 2) := by
  rcases Nat.lt_or_ge (6 * 2 ^ p) n with hn6 | hn6
  · have hm := m_ge h1
    have hw0 : 1.1 / (2 : ℝ) ^ p ≤ 4 / 2 ^ p := by gcongr; norm_num
    refine le_trans (fraction_mono fun h hh => ?_)
      ((C52_pf_accuracy_middle (ords := ords) (ln := ln) hcfg c (p := p) (by omega) h2 hδ0
        (hδ.trans (by norm_num)) (by omega) hn).trans ?_)
    · rintro ⟨y, e1, e2⟩
      refine hh ⟨y, e1, e2.trans ?_⟩
      have : (0 : ℝ) ≤ if n ≤ 2 * 2 ^ p then 0 else 0.11 * 2 ^ p := by split <;> positivity
      refine le_trans ?_ (le_add_of_nonneg_right this)
      refine mul_le_mul ?_ ?_ (by positivity) (by positivity)
      · norm_num at hw0 ⊢
        linarith
      · have : (0 : ℝ) ≤ 1.6 * 2 ^ p := by positivity
        linarith
    · gcongr
      have h4 : (1 + δ) ^ 2 ≤ 1.21 := by
        have : (1 + δ) ^ 2 ≤ (1 + 1 / 10) ^ 2 := by gcongr
        norm_num at *; linarith
      calc (1.09 + 4 / 2 ^ p) * (1 + δ) ^ 2 ≤ (1.09 + 4 / 256) * 1.21 := by gcongr
        _ ≤ 3.4 := by norm_num
  · refine le_trans (fraction_mono fun h hh => ?_) (pf_whole_low_prob hln h1 h2 hδ0 hδ hn6)
    rintro ⟨y, e1, e2⟩
    apply hh
    have hs : Supported cfg c (insertAll p h) := supported64 hcfg c (by simp [insertAll])
    refine ⟨y, ?_, e2⟩
    rw [pf_count_val hs (contents_insertAll (by omega) h2 h), e1]

/-- An instance: `2^16` registers and 100000 values, counted by linear counting; the estimate is
within 7500 of 100000 with probability at least 94 %. -/
example (hln : LnSpec ln) : fraction (fun h : Fin 100000 → Fin (2 ^ 64) => ¬ ∃ y : ℚ,
    later (PF.api Cfg.debug64 ln (noCodec (Fin 100000))) ords (insertAll 16 h) [.count 0] =
      .ok [.count (fin y)] ∧ |(y : ℝ) - (100000 : ℕ)| ≤ 7500) ≤ 0.06 := by
  have h := C56_pf_accuracy (ords := ords) (cfg := Cfg.debug64) (n := 100000) (p := 16)
    (δ := 0.03) hln rfl (noCodec (Fin 100000)) (by norm_num) (by norm_num) (by norm_num)
    (by norm_num) (by norm_num)
  refine le_trans (fraction_mono fun x hx => ?_) (h.trans (by norm_num))
  rintro ⟨y, e1, e2⟩
  exact hx ⟨y, e1, e2.trans (by norm_num)⟩

end HLL
