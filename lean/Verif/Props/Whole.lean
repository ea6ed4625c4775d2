import Verif.Proofs.Whole3
import Verif.Props.RawAccuracy

/-!
# C55: `HyperLogLogPlus::count` is accurate for every cardinality

As in C42 every assignment `h : Fin n → Fin (2^64)` of hashes to the values `0, …, n-1` is equally
likely, and `fraction P` is the probability of `P`.
-/

namespace HLL
open Spec F64 Exps

variable {cfg : Cfg} {ln : F64 → F64} {ords : Nat → IterOrder × IterOrder} {p n : Nat} {δ : ℝ}

theorem raw_bad (h1 : 8 ≤ p) (h2 : p ≤ 18) (hn : n ≤ 6 * 2 ^ p) (hδ0 : 0 < δ) (hδ : δ ≤ 1 / 10) :
    fraction (fun h : Fin n → Fin (2 ^ 64) =>
        ¬ |(rawQ p (hsum 0 (regs 64 p (hashSet 64 h))) : ℝ) - centre 64 p n| ≤
          (δ + (1 + δ) / 2 ^ 32) * centre 64 p n) ≤ 1.3915 / (2 ^ p * δ ^ 2) := by
  refine le_trans (fraction_mono fun h hh => ?_)
    ((raw_deviation (p := p) (w := 64) n (by omega) (by omega) le_rfl hδ0).trans ?_)
  · by_contra hcon
    rw [not_le] at hcon
    exact hh (raw_good (by omega) h2 hδ0 (by omega) hcon)
  · have h3 := relVar_le (w := 64) (by omega) h1 h2 hn
    gcongr
    have h4 : (1 + δ) ^ 2 ≤ 1.21 := by
      have : (1 + δ) ^ 2 ≤ (1 + 1 / 10) ^ 2 := by gcongr
      norm_num at *; linarith
    calc relVar 64 p n * (1 + δ) ^ 2 ≤ 1.15 * (1 + δ) ^ 2 := by gcongr
      _ ≤ 1.15 * 1.21 := by gcongr
      _ = 1.3915 := by norm_num

theorem zeros_bad (h1 : 8 ≤ p) (h2 : p ≤ 18) (hn : n ≤ 2 * 2 ^ p) (hδ0 : 0 < δ) (hδ : δ ≤ 1 / 10) :
    fraction (fun h : Fin n → Fin (2 ^ 64) =>
        zdev p n δ ≤ |(zeros 64 p (hashSet 64 h) : ℝ) - 2 ^ p * (1 - 1 / 2 ^ p) ^ n|) ≤
      0.95 / (2 ^ p * δ ^ 2) := by
  refine (fraction_zeros (by omega) (by omega) le_rfl n (zdev_facts h1 hδ0).1).trans ?_
  refine zeros_prob_arith (l := (n : ℝ) / 2 ^ p) (by positivity) ?_ (m_ge h1) (q_pos h1) (q_lower h1)
    hδ0 hδ
  rw [div_le_iff₀ (by positivity)]
  exact_mod_cast hn

theorem codes_bad (hδ0 : 0 < δ) :
    fraction (fun h : Fin n → Fin (2 ^ 64) =>
        δ * (n + 1.6 * 2 ^ p) ≤ |(zeros 64 25 (hashSet 64 h) : ℝ) - 2 ^ 25 * (1 - 1 / 2 ^ 25) ^ n|) ≤
      0.15625 / (2 ^ p * δ ^ 2) :=
  (fraction_zeros (by norm_num) (by norm_num) le_rfl n (by positivity)).trans (codes_prob_arith hδ0)

theorem few_bad (h1 : 8 ≤ p) (h2 : p ≤ 18) (hn : 2 * 2 ^ p < n) (hδ0 : 0 < δ) (hδ : δ ≤ 1 / 10) :
    fraction (fun h : Fin n → Fin (2 ^ 64) => ¬ 5 * zeros 64 p (hashSet 64 h) < 2 ^ p) ≤
      0.33 / (2 ^ p * δ ^ 2) := by
  have hm : (0 : ℝ) < 2 ^ p := by positivity
  have hq : (1 - 1 / (2 : ℝ) ^ p) ^ n ≤ 0.1354 := by
    refine ((q_upper h1).trans (Real.exp_le_exp.2 ?_)).trans exp_neg_two_le
    rw [neg_le_neg_iff, le_div_iff₀ hm]
    exact_mod_cast hn.le
  have hq0 := q_pos (n := n) h1
  refine le_trans (fraction_mono fun h hh => ?_)
    ((fraction_zeros (w := 64) (p := p) (by omega) (by omega) le_rfl n
      (t := 0.0646 * 2 ^ p) (by positivity)).trans ?_)
  · by_contra hcon
    apply hh
    rw [not_le] at hcon
    have h3 := (abs_lt.1 hcon).2
    have h4 : (2 : ℝ) ^ p * (1 - 1 / 2 ^ p) ^ n ≤ 2 ^ p * 0.1354 := by gcongr
    have : 5 * (zeros 64 p (hashSet 64 h) : ℝ) < 2 ^ p := by
      generalize (2 : ℝ) ^ p * (1 - 1 / 2 ^ p) ^ n = μ at *
      norm_num at h3 h4; linarith
    exact_mod_cast this
  · generalize (1 - 1 / (2 : ℝ) ^ p) ^ n = q at *
    generalize (2 : ℝ) ^ p = m at *
    have hd : δ ^ 2 ≤ 0.01 := by
      have : δ ^ 2 ≤ (1 / 10) ^ 2 := by gcongr
      norm_num at *; linarith
    have e : m * (q * (1 - q)) / (0.0646 * m) ^ 2 = q * (1 - q) / 0.0646 ^ 2 / m := by field_simp
    rw [e, div_le_div_iff₀ hm (by positivity)]
    have h3 : q * (1 - q) / 0.0646 ^ 2 ≤ 33 := by
      rw [div_le_iff₀ (by norm_num)]
      norm_num at hq ⊢
      nlinarith
    calc q * (1 - q) / 0.0646 ^ 2 * (m * δ ^ 2) ≤ 33 * (m * δ ^ 2) := by gcongr
      _ ≤ 33 * (m * 0.01) := by gcongr
      _ = 0.33 * m := by ring

theorem whole_low_prob (hln : LnSpec ln) (v : Search) (h1 : 8 ≤ p) (h2 : p ≤ 18) (hδ0 : 0 < δ)
    (hδ : δ ≤ 1 / 10) (hn : n ≤ 6 * 2 ^ p) :
    fraction (fun h : Fin n → Fin (2 ^ 64) => ¬ ∃ y : ℚ,
        plusCount ln (Plus.biasOf v) p (hashSet 64 h) = fin y ∧
        |(y : ℝ) - n| ≤ wholeErr p δ * (n + 1.6 * 2 ^ p)) ≤ 2.5 / (2 ^ p * δ ^ 2) := by
  have hmd : 0 < 2 ^ p * δ ^ 2 := by positivity
  have r := raw_bad h1 h2 hn hδ0 hδ
  rcases Nat.lt_or_ge (2 * 2 ^ p) n with hn2 | hn2
  · refine le_trans (fraction_mono fun h hh => ?_) ((fraction_or _ _).trans
      ((add_le_add r (few_bad h1 h2 hn2 hδ0 hδ)).trans ?_))
    · by_contra hcon
      rw [not_or, not_not, not_not] at hcon
      exact hh (whole_low hln v h1 h2 hδ0 hδ hn (hashSet_lt h) (card_codes_le p h) hcon.1
        (fun h3 => absurd h3 (by omega)) (fun _ => hcon.2) (fun h3 => absurd h3 (by omega)))
    · rw [← add_div]; gcongr; norm_num
  · refine le_trans (fraction_mono fun h hh => ?_) ((fraction_or _ _).trans
      ((add_le_add ((fraction_or _ _).trans (add_le_add r (zeros_bad h1 h2 hn2 hδ0 hδ)))
        (codes_bad (p := p) hδ0)).trans ?_))
    · by_contra hcon
      rw [not_or, not_or, not_not, not_le, not_le] at hcon
      exact hh (whole_low hln v h1 h2 hδ0 hδ hn (hashSet_lt h) (card_codes_le p h) hcon.1.1
        (fun _ => hcon.1.2) (fun h3 => absurd h3 (by omega)) (fun _ => hcon.2))
    · rw [← add_div, ← add_div]; gcongr; norm_num

/-- **C55.** Insert `n ≤ 2^59` values with random hashes into a fresh `HyperLogLogPlus` with
`m = 2^p` registers, `8 ≤ p ≤ 18`, and call `count`.  For `0 < δ ≤ 1/10` the result differs from `n`
by at most `(1.05 δ + 0.005 + 4/m) (n + 1.6 m)`, except with probability at most `5 / (2 m δ²)`. -/
theorem C55_plus_accuracy (hln : LnSpec ln) (hcfg : cfg.usizeBits = 64) (c : Serde.Codec (Fin n))
    (h1 : 8 ≤ p) (h2 : p ≤ 18) (hδ0 : 0 < δ) (hδ : δ ≤ 1 / 10) (hn : n ≤ 2 ^ 59) :
    fraction (fun h : Fin n → Fin (2 ^ 64) => ¬ ∃ y : ℚ,
        later (Plus.api cfg ln c) ords (insertAll p h) [.count 0] = .ok [.count (fin y)] ∧
        |(y : ℝ) - n| ≤ (1.05 * δ + 0.005 + 4 / 2 ^ p) * (n + 1.6 * 2 ^ p)) ≤
      2.5 / (2 ^ p * δ ^ 2) := by
  rcases Nat.lt_or_ge (6 * 2 ^ p) n with hn6 | hn6
  · have hm := m_ge h1
    have hn6' : 6 * (2 : ℝ) ^ p < n := by exact_mod_cast hn6
    have hw : 1.1 / (2 : ℝ) ^ p ≤ 1.1 / 256 := by gcongr
    have hw4 : 4 / (2 : ℝ) ^ p ≤ 4 / 256 := by gcongr
    have hw0 : 1.1 / (2 : ℝ) ^ p ≤ 4 / 2 ^ p := by gcongr; norm_num
    refine le_trans (fraction_mono fun h hh => ?_)
      ((C51_plus_accuracy_large (ords := ords) hln hcfg c (p := p) (by omega) h2 hδ0
        (hδ.trans (by norm_num)) ?_ hn).trans ?_)
    · rintro ⟨y, e1, e2⟩
      refine hh ⟨y, e1, e2.trans ?_⟩
      refine mul_le_mul ?_ (by linarith) (by positivity) (by positivity)
      norm_num at hw0 ⊢
      linarith
    · have : (0.89 : ℝ) * n ≤ (1 - (δ + 1.1 / 2 ^ p + 0.001)) * n := by
        refine mul_le_mul_of_nonneg_right ?_ (by positivity)
        norm_num at hw hδ ⊢; linarith
      norm_num at this ⊢
      linarith
    · gcongr
      have h4 : (1 + δ) ^ 2 ≤ 1.21 := by
        have : (1 + δ) ^ 2 ≤ (1 + 1 / 10) ^ 2 := by gcongr
        norm_num at *; linarith
      calc (1.09 + 4 / 2 ^ p) * (1 + δ) ^ 2 ≤ (1.09 + 4 / 256) * 1.21 := by gcongr
        _ ≤ 2.5 := by norm_num
  · refine le_trans (fraction_mono fun h hh => ?_)
      (whole_low_prob hln cfg.search h1 h2 hδ0 hδ hn6)
    rintro ⟨y, e1, e2⟩
    apply hh
    have hs : Supported cfg c (insertAll p h) := supported64 hcfg c (by simp [insertAll])
    refine ⟨y, ?_, e2⟩
    rw [plus_count_val hs (contents_insertAll (by omega) h2 h), e1]

/-- An instance: `2^18` registers, 700000 values, where the estimate is bias-corrected; it is within
29200 of 700000 with probability at least 97 %. -/
example (hln : LnSpec ln) : fraction (fun h : Fin 700000 → Fin (2 ^ 64) => ¬ ∃ y : ℚ,
    later (Plus.api Cfg.debug64 ln (noCodec (Fin 700000))) ords (insertAll 18 h) [.count 0] =
      .ok [.count (fin y)] ∧ |(y : ℝ) - (700000 : ℕ)| ≤ 29200) ≤ 0.025 := by
  have h := C55_plus_accuracy (ords := ords) (cfg := Cfg.debug64) (n := 700000) (p := 18)
    (δ := 0.02) hln rfl (noCodec (Fin 700000)) (by norm_num) (by norm_num) (by norm_num)
    (by norm_num) (by norm_num)
  refine le_trans (fraction_mono fun x hx => ?_) (h.trans (by norm_num))
  rintro ⟨y, e1, e2⟩
  exact hx ⟨y, e1, e2.trans (by norm_num)⟩

end HLL
