import Verif.Proofs.ChernoffZeros
import Verif.Props.Programs

/-!
# C62: the error probability of `count` decays exponentially

C55, C56 and C57 bound the probability of a large error by Chebyshev's inequality, so that it decays
like `1/δ²`.  The registers are not independent, but negatively dependent (`Proofs/NegDep.lean`), so
Chernoff's method applies: the probability of an error of the same size is at most a constant times
`exp(-m δ²/4)` for HyperLogLog++ and `exp(-m δ²/6)` for the original HyperLogLog.  As in C57 the
sketch is built by any program, and the hashes of the values are random.
-/

namespace HLL
open Spec F64 Exps

variable {cfg : Cfg} {ln : F64 → F64} {ords : Nat → IterOrder × IterOrder} {p n w : Nat} {δ : ℝ}

/-- The raw estimate is near its centre. -/
theorem raw_tail (h1 : 8 ≤ p) (h2 : p ≤ 18) (hw : p + 16 ≤ w) (hw' : w ≤ 64) (hn : n ≤ 6 * 2 ^ p)
    (hδ0 : 0 < δ) (hδ : δ ≤ 1 / 10) :
    fraction (fun h : Fin n → Fin (2 ^ 64) =>
        ¬ |(rawQ p (hsum 0 (regs w p (hashSet w h))) : ℝ) - centre w p n| ≤
          (δ + (1 + δ) / 2 ^ 32) * centre w p n) ≤ 2 * Real.exp (-(2 ^ p * δ ^ 2 / 4)) := by
  refine le_trans (fraction_mono fun h hh => ?_)
    (harm_tail (loaded_low h1 h2 hw hw' hn) (by omega) hw' hδ0 hδ)
  by_contra hcon
  rw [not_le] at hcon
  exact hh (raw_good (by omega) h2 hδ0 (by omega) hcon)

/-- The raw estimate is near `n` for many values. -/
theorem raw_tail_high (h1 : 8 ≤ p) (h2 : p ≤ 18) (hp : p ≤ w) (hw : w ≤ 64) (hn6 : 6 * 2 ^ p < n)
    (hn : 60 * n ≤ 2 ^ (w + 1)) (hδ0 : 0 < δ) (hδ : δ ≤ 1 / 10) :
    fraction (fun h : Fin n → Fin (2 ^ 64) =>
        ¬ |(rawQ p (hsum 0 (regs w p (hashSet w h))) : ℝ) - n| ≤ (δ + 1.1 / 2 ^ p + 0.001) * n) ≤
      2 * Real.exp (-(2 ^ p * δ ^ 2 / 4)) := by
  refine le_trans (fraction_mono fun h hh => ?_)
    (harm_tail (loaded_high h1 h2 hp hw (by omega) hn) hp hw hδ0 hδ)
  by_contra hcon
  rw [not_le] at hcon
  exact hh (raw_near (by omega) h2 hp (by omega) (by omega) hn hδ0 (by linarith) hcon)

theorem high_err (hδ0 : 0 < δ) :
    (δ + 1.1 / 2 ^ p + 0.001) * (n : ℝ) ≤ (1.05 * δ + 0.005 + 4 / 2 ^ p) * (n + 1.6 * 2 ^ p) := by
  have hw0 : 1.1 / (2 : ℝ) ^ p ≤ 4 / 2 ^ p := by gcongr; norm_num
  refine mul_le_mul ?_ ?_ (by positivity) (by positivity)
  · norm_num at hw0 ⊢
    linarith
  · have : (0 : ℝ) ≤ 1.6 * 2 ^ p := by positivity
    linarith

/-- C62 for one sketch of HyperLogLog++. -/
theorem plus_tail (hln : LnSpec ln) (v : Search) (h1 : 8 ≤ p) (h2 : p ≤ 18) (hδ0 : 0 < δ)
    (hδ : δ ≤ 1 / 10) (hn : n ≤ 2 ^ 59) :
    fraction (fun h : Fin n → Fin (2 ^ 64) => ¬ ∃ y : ℚ,
        plusCount ln (Plus.biasOf v) p (hashSet 64 h) = fin y ∧
        |(y : ℝ) - n| ≤ (1.05 * δ + 0.005 + 4 / 2 ^ p) * (n + 1.6 * 2 ^ p)) ≤
      6 * Real.exp (-(2 ^ p * δ ^ 2 / 4)) := by
  have hx := Real.exp_pos (-(2 ^ p * δ ^ 2 / 4))
  rcases Nat.lt_or_ge (6 * 2 ^ p) n with hn6 | hn6
  · refine le_trans (fraction_mono fun h hh => ?_)
      ((raw_tail_high (w := 64) h1 h2 (by omega) le_rfl hn6 (by omega) hδ0 hδ).trans (by linarith))
    intro hcon
    apply hh
    have hn6' : 6 * (2 : ℝ) ^ p < n := by exact_mod_cast hn6
    refine ⟨_, plusCount_raw hln v (by omega) h2 (hashSet_lt h) ?_, hcon.trans (high_err hδ0)⟩
    have hw : 1.1 / (2 : ℝ) ^ p ≤ 1.1 / 256 := by have := m_ge h1; gcongr
    have h3 : (0.89 : ℝ) * n ≤ (1 - (δ + 1.1 / 2 ^ p + 0.001)) * n := by
      refine mul_le_mul_of_nonneg_right ?_ (by positivity)
      norm_num at hw hδ ⊢; linarith
    have h4 := (abs_le.1 hcon).1
    have h6 : ((5 * (2 : ℚ) ^ p : ℚ) : ℝ) < (rawQ p (hsum 0 (regs 64 p (hashSet 64 h))) : ℝ) := by
      push_cast
      generalize 1.1 / (2 : ℝ) ^ p = ω at *
      norm_num at h3 h4
      linarith
    exact_mod_cast h6
  · have r := raw_tail (w := 64) h1 h2 (by omega) le_rfl hn6 hδ0 hδ
    rcases Nat.lt_or_ge (2 * 2 ^ p) n with hn2 | hn2
    · refine le_trans (fraction_mono fun h hh => ?_) ((fraction_or _ _).trans
        ((add_le_add r (few_tail (w := 64) h1 (by omega) le_rfl hδ0 hδ hn2)).trans (by linarith)))
      by_contra hcon
      rw [not_or, not_not, not_not] at hcon
      exact hh (whole_low hln v h1 h2 hδ0 hδ hn6 (hashSet_lt h) (card_codes_le p h) hcon.1
        (fun h3 => absurd h3 (by omega)) (fun _ => hcon.2) (fun h3 => absurd h3 (by omega)))
    · refine le_trans (fraction_mono fun h hh => ?_) ((fraction_or _ _).trans
        ((add_le_add ((fraction_or _ _).trans
          (add_le_add r (zeros_tail2 (w := 64) h1 (by omega) le_rfl hδ0 hδ hn2)))
          (prefixes_tail (p := p) hδ0 hδ)).trans (by linarith)))
      by_contra hcon
      rw [not_or, not_or, not_not, not_le, not_le] at hcon
      exact hh (whole_low hln v h1 h2 hδ0 hδ hn6 (hashSet_lt h) (card_codes_le p h) hcon.1.1
        (fun _ => hcon.1.2) (fun h3 => absurd h3 (by omega)) (fun _ => hcon.2))

/-- C62 for one sketch of the original HyperLogLog. -/
theorem pf_tail (hln : LnSpec ln) (h1 : 8 ≤ p) (h2 : p ≤ 16) (hδ0 : 0 < δ) (hδ : δ ≤ 1 / 10)
    (hn : (1 + (δ + 1.1 / 2 ^ p + 0.001)) * n ≤ 2 ^ 32 / 30) :
    fraction (fun h : Fin n → Fin (2 ^ 64) => ¬ ∃ y : ℚ,
        pfCount ln p (hashSet 32 h) = fin y ∧
        |(y : ℝ) - n| ≤ (1.05 * δ + 0.005 + 4 / 2 ^ p) * (n + 1.6 * 2 ^ p) +
          (if n ≤ 2 * 2 ^ p then 0 else 0.11 * 2 ^ p)) ≤
      4 * Real.exp (-(2 ^ p * δ ^ 2 / 6)) := by
  have hx := Real.exp_pos (-(2 ^ p * δ ^ 2 / 6))
  have hx4 : Real.exp (-(2 ^ p * δ ^ 2 / 4)) ≤ Real.exp (-(2 ^ p * δ ^ 2 / 6)) := by
    have : 0 ≤ 2 ^ p * δ ^ 2 := by positivity
    rw [Real.exp_le_exp]; linarith
  have hn0 : (0 : ℝ) ≤ n := Nat.cast_nonneg n
  have hε : 0 ≤ δ + 1.1 / 2 ^ p + 0.001 := by positivity
  rcases Nat.lt_or_ge (6 * 2 ^ p) n with hn6 | hn6
  · have hn' : 60 * n ≤ 2 ^ (32 + 1) := by
      have : 60 * (n : ℝ) ≤ 2 ^ (32 + 1) := by
        have : (n : ℝ) ≤ 2 ^ 32 / 30 := by nlinarith
        norm_num at this ⊢; linarith
      exact_mod_cast this
    refine le_trans (fraction_mono fun h hh => ?_)
      ((raw_tail_high (w := 32) h1 (by omega) (by omega) (by omega) hn6 hn' hδ0 hδ).trans (by linarith))
    intro hcon
    apply hh
    have hn6' : 6 * (2 : ℝ) ^ p < n := by exact_mod_cast hn6
    obtain ⟨q1, q2⟩ := abs_le.1 hcon
    have hw : 1.1 / (2 : ℝ) ^ p ≤ 1.1 / 256 := by have := m_ge h1; gcongr
    have h3 : (0.89 : ℝ) * n ≤ (1 - (δ + 1.1 / 2 ^ p + 0.001)) * n := by
      refine mul_le_mul_of_nonneg_right ?_ (by positivity)
      norm_num at hw hδ ⊢; linarith
    refine ⟨_, pfCount_raw (by omega) h2 ?_ ?_, hcon.trans ?_⟩
    · have h6 : ((5 / 2 * (2 : ℚ) ^ p : ℚ) : ℝ) < (rawQ p (hsum 0 (regs 32 p (hashSet 32 h))) : ℝ) := by
        push_cast
        generalize 1.1 / (2 : ℝ) ^ p = ω at *
        norm_num at h3 q1
        linarith
      exact_mod_cast h6
    · have : (rawQ p (hsum 0 (regs 32 p (hashSet 32 h))) : ℝ) ≤ 2 ^ 32 / 30 := by linarith
      have h6 : (rawQ p (hsum 0 (regs 32 p (hashSet 32 h))) : ℝ) ≤ ((2 ^ 32 / 30 : ℚ) : ℝ) := by
        push_cast; exact this
      exact_mod_cast h6
    · have : (0 : ℝ) ≤ if n ≤ 2 * 2 ^ p then 0 else 0.11 * 2 ^ p := by split <;> positivity
      exact (high_err hδ0).trans (le_add_of_nonneg_right this)
  · have r := raw_tail (w := 32) h1 (by omega) (by omega) (by omega) hn6 hδ0 hδ
    rcases Nat.lt_or_ge (3 * 2 ^ p) n with hn3 | hn3
    · refine le_trans (fraction_mono fun h hh => ?_) (r.trans (by linarith))
      intro hcon
      exact hh (pf_whole_low hln h1 h2 hδ0 hδ hn6 hcon (fun h3 => absurd h3 (by omega)))
    · refine le_trans (fraction_mono fun h hh => ?_) ((fraction_or _ _).trans
        ((add_le_add r (zeros_tail3 (w := 32) h1 (by omega) (by omega) hδ0 hδ hn3)).trans
          (by linarith)))
      by_contra hcon
      rw [not_or, not_not, not_le] at hcon
      exact hh (pf_whole_low hln h1 h2 hδ0 hδ hn6 hcon.1 (fun _ => hcon.2))

variable {N i : Nat} {ops : List (Op (Fin N))} {V : Finset (Fin N)}

/-- **C62** for `HyperLogLogPlus`: run any program, with random hashes.  If sketch `i` has precision
`p ≥ 8` and received exactly the values `V`, then `count` on it returns a number that differs from
`n = |V|` by at most `(1.05 δ + 0.005 + 4/m) (n + 1.6 m)`, except with probability at most
`6 exp(-m δ²/4)`. -/
theorem C62_plus_tail (hln : LnSpec ln) (c : Serde.Codec (Fin N))
    (hs : ∀ h, Supported cfg c (ops.map (withHashes h)))
    (hV : (received 18 ops)[i]? = some (p, V)) (hn : V.card ≤ 2 ^ 59) (h1 : 8 ≤ p) (hδ0 : 0 < δ)
    (hδ : δ ≤ 1 / 10) :
    fraction (fun h : Fin N → Fin (2 ^ 64) => ¬ ∃ y : ℚ,
        later (Plus.api cfg ln c) ords (ops.map (withHashes h)) [.count i] = .ok [.count (fin y)] ∧
        |(y : ℝ) - V.card| ≤ (1.05 * δ + 0.005 + 4 / 2 ^ p) * (V.card + 1.6 * 2 ^ p)) ≤
      6 * Real.exp (-(2 ^ p * δ ^ 2 / 4)) := by
  have key := plus_tail hln cfg.search h1 (received_le hV) hδ0 hδ hn
  rw [← fraction_restrict V 64 fun S => ¬ ∃ y : ℚ, plusCount ln (Plus.biasOf cfg.search) p S = fin y ∧
    |(y : ℝ) - V.card| ≤ (1.05 * δ + 0.005 + 4 / 2 ^ p) * (V.card + 1.6 * 2 ^ p)] at key
  refine le_trans (fraction_mono fun h hh => ?_) key
  rintro ⟨y, e1, e2⟩
  refine hh ⟨y, ?_, e2⟩
  have hc : (contents 64 18 (ops.map (withHashes h)))[i]? = some (meaning 64 h (p, V)) := by
    rw [contents_meaning, List.getElem?_map, hV]; rfl
  rw [plus_count_val (hs h) hc]
  simp only [meaning]
  rw [e1]

/-- **C62** for `HyperLogLogPF`: run any program, with random hashes.  If sketch `i` has precision
`p ≥ 8` and received exactly the values `V`, `n = |V|`, and `(1 + δ + 1.1/m + 0.001) n ≤ 2^32/30`,
then `count` on it returns a number that differs from `n` by at most
`(1.05 δ + 0.005 + 4/m) (n + 1.6 m)`, plus `0.11 m` if `n > 2 m`, except with probability at most
`4 exp(-m δ²/6)`. -/
theorem C62_pf_tail (hln : LnSpec ln) (c : Serde.Codec (Fin N))
    (hs : ∀ h, Supported cfg c (ops.map (withHashes h)))
    (hV : (received 16 ops)[i]? = some (p, V)) (h1 : 8 ≤ p) (hδ0 : 0 < δ) (hδ : δ ≤ 1 / 10)
    (hn : (1 + (δ + 1.1 / 2 ^ p + 0.001)) * V.card ≤ 2 ^ 32 / 30) :
    fraction (fun h : Fin N → Fin (2 ^ 64) => ¬ ∃ y : ℚ,
        later (PF.api cfg ln c) ords (ops.map (withHashes h)) [.count i] = .ok [.count (fin y)] ∧
        |(y : ℝ) - V.card| ≤ (1.05 * δ + 0.005 + 4 / 2 ^ p) * (V.card + 1.6 * 2 ^ p) +
          (if V.card ≤ 2 * 2 ^ p then 0 else 0.11 * 2 ^ p)) ≤
      4 * Real.exp (-(2 ^ p * δ ^ 2 / 6)) := by
  have key := pf_tail hln h1 (received_le hV) hδ0 hδ hn
  rw [← fraction_restrict V 32 fun S => ¬ ∃ y : ℚ, pfCount ln p S = fin y ∧
    |(y : ℝ) - V.card| ≤ (1.05 * δ + 0.005 + 4 / 2 ^ p) * (V.card + 1.6 * 2 ^ p) +
          (if V.card ≤ 2 * 2 ^ p then 0 else 0.11 * 2 ^ p)] at key
  refine le_trans (fraction_mono fun h hh => ?_) key
  rintro ⟨y, e1, e2⟩
  refine hh ⟨y, ?_, e2⟩
  have hc : (contents 32 16 (ops.map (withHashes h)))[i]? = some (meaning 32 h (p, V)) := by
    rw [contents_meaning, List.getElem?_map, hV]; rfl
  rw [pf_count_val (hs h) hc]
  simp only [meaning]
  rw [e1]

theorem exp_neg_le {x : ℝ} {k : Nat} (h : (k : ℝ) ≤ x) : Real.exp (-x) ≤ (0.4 : ℝ) ^ k := by
  have h1 : Real.exp (-1) ≤ 0.4 := by
    rw [Real.exp_neg]
    have := Real.exp_one_gt_d9
    rw [inv_le_comm₀ (Real.exp_pos 1) (by norm_num)]
    norm_num at this ⊢; linarith
  calc Real.exp (-x) ≤ Real.exp (k * -1) := Real.exp_le_exp.2 (by linarith)
    _ = Real.exp (-1) ^ k := by rw [Real.exp_nat_mul]
    _ ≤ _ := pow_le_pow_left₀ (Real.exp_pos _).le h1 k

/-- An instance: two sketches with `2^14` registers have 200000 values each, half of them shared; the
merged sketch counts the 300000 distinct values to within 36500, except with probability below
`10^-14`. -/
example (hln : LnSpec ln) : fraction (fun h : Fin (3 * 100000) → Fin (2 ^ 64) => ¬ ∃ y : ℚ,
    later (Plus.api Cfg.debug64 ln (noCodec _)) ords ((twoSites 100000).map (withHashes h)) [.count 0] =
      .ok [.count (fin y)] ∧ |(y : ℝ) - (300000 : ℕ)| ≤ 36500) ≤ 1 / 10 ^ 14 := by
  have h := C62_plus_tail (ords := ords) (cfg := Cfg.debug64) (N := 3 * 100000)
    (ops := twoSites 100000) (δ := 0.1) hln (noCodec _)
    (fun h => supported64 rfl _ (twoSites_reload 100000 h))
    (received_twoSites 100000 (by norm_num)) (by rw [Finset.card_univ, Fintype.card_fin]; norm_num) (by norm_num)
    (by norm_num) (by norm_num)
  rw [Finset.card_univ, Fintype.card_fin] at h
  refine le_trans (fraction_mono fun x hx => ?_) (h.trans ?_)
  · rintro ⟨y, e1, e2⟩
    refine hx ⟨y, e1, ?_⟩
    norm_num at e2 ⊢
    linarith
  · have := exp_neg_le (x := 2 ^ 14 * 0.1 ^ 2 / 4) (k := 40) (by norm_num)
    norm_num at this ⊢
    linarith

/-- The same program with the original HyperLogLog: within 38000, except with probability below
`10^-10`. -/
example (hln : LnSpec ln) : fraction (fun h : Fin (3 * 100000) → Fin (2 ^ 64) => ¬ ∃ y : ℚ,
    later (PF.api Cfg.debug64 ln (noCodec _)) ords ((twoSites 100000).map (withHashes h)) [.count 0] =
      .ok [.count (fin y)] ∧ |(y : ℝ) - (300000 : ℕ)| ≤ 38000) ≤ 1 / 10 ^ 10 := by
  have h := C62_pf_tail (ords := ords) (cfg := Cfg.debug64) (N := 3 * 100000)
    (ops := twoSites 100000) (δ := 0.1) hln (noCodec _)
    (fun h => supported64 rfl _ (twoSites_reload 100000 h))
    (received_twoSites 100000 (by norm_num)) (by norm_num) (by norm_num) (by norm_num)
    (by rw [Finset.card_univ, Fintype.card_fin]; norm_num)
  rw [Finset.card_univ, Fintype.card_fin] at h
  refine le_trans (fraction_mono fun x hx => ?_) (h.trans ?_)
  · rintro ⟨y, e1, e2⟩
    refine hx ⟨y, e1, ?_⟩
    norm_num at e2 ⊢
    linarith
  · have := exp_neg_le (x := 2 ^ 14 * 0.1 ^ 2 / 6) (k := 27) (by norm_num)
    norm_num at this ⊢
    linarith

end HLL
