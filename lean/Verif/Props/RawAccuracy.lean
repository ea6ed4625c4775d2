import Verif.Proofs.RawAccuracy

/-!
# C50–C52: distribution of the registers, and accuracy of `count` for large cardinalities

As in C42 every assignment `h : Fin n → Fin (2^64)` of hashes to the values `0, …, n-1` is equally
likely.  `fraction P` is the probability of `P` and `mean f` the expectation of `f`.
-/

namespace HLL
open Spec F64

open Classical in
theorem fraction_eq_mean {n : Nat} (P : (Fin n → Fin (2 ^ 64)) → Prop) :
    fraction P = mean (fun h => if P h then (1 : ℝ) else 0) := by
  unfold fraction mean
  rw [← Finset.sum_filter, Finset.sum_const, nsmul_eq_mul, mul_one]

variable {cfg : Cfg} {ln : F64 → F64} {ords : Nat → IterOrder × IterOrder} {p n : Nat}

/-! ## C50: distribution of the registers -/

/-- What C50 says about the registers `M h 0, …, M h (2^p - 1)` of an assignment `h` with hashes
of `w` bits. -/
structure RegisterLaw (w p n : Nat) (M : (Fin n → Fin (2 ^ 64)) → ℕ → ℕ) : Prop where
  /-- a register is at most `k` with probability `(1 - 1/2^(p+k))^n` -/
  one : ∀ j < 2 ^ p, ∀ k ≤ w - p, fraction (fun h => M h j ≤ k) = (1 - 1 / 2 ^ (p + k)) ^ n
  /-- the joint distribution of two registers -/
  two : ∀ i < 2 ^ p, ∀ j < 2 ^ p, i ≠ j → ∀ k ≤ w - p, ∀ l ≤ w - p,
    fraction (fun h => M h i ≤ k ∧ M h j ≤ l) = (1 - 1 / 2 ^ (p + k) - 1 / 2 ^ (p + l)) ^ n
  /-- no register exceeds `w - p + 1` -/
  top : ∀ h j, M h j ≤ w - p + 1
  /-- the expectation `m e` of the harmonic sum -/
  mean_eq : mean (fun h => ∑ j ∈ Finset.range (2 ^ p), (1 / 2 : ℝ) ^ M h j) =
    2 ^ p * ((1 / 2) ^ (w - p + 1) + ∑ k ∈ Finset.range (w - p + 1),
      (1 / 2) ^ (k + 1) * (1 - 1 / 2 ^ (p + k)) ^ n)
  /-- and a bound on its variance -/
  variance_le : ∀ e, e = (1 / 2) ^ (w - p + 1) + ∑ k ∈ Finset.range (w - p + 1),
      (1 / 2) ^ (k + 1) * (1 - 1 / 2 ^ (p + k)) ^ n →
    mean (fun h => (∑ j ∈ Finset.range (2 ^ p), (1 / 2 : ℝ) ^ M h j - 2 ^ p * e) ^ 2) ≤
      2 ^ p * ((1 / 4) ^ (w - p + 1) + ∑ k ∈ Finset.range (w - p + 1),
        3 * (1 / 4) ^ (k + 1) * (1 - 1 / 2 ^ (p + k)) ^ n - e ^ 2)

theorem moment_half_eq (w p n : Nat) : moment w p n (1 / 2) = (1 / 2) ^ (w - p + 1) +
    ∑ k ∈ Finset.range (w - p + 1), (1 / 2) ^ (k + 1) * (1 - 1 / 2 ^ (p + k)) ^ n := by
  unfold moment
  congr 1
  exact Finset.sum_congr rfl fun k _ => by rw [half_pow_sub, pow_succ]; ring

theorem moment_quarter_eq (w p n : Nat) : moment w p n (1 / 4) = (1 / 4) ^ (w - p + 1) +
    ∑ k ∈ Finset.range (w - p + 1), 3 * (1 / 4) ^ (k + 1) * (1 - 1 / 2 ^ (p + k)) ^ n := by
  unfold moment
  congr 1
  exact Finset.sum_congr rfl fun k _ => by rw [quarter_pow_sub, pow_succ]; ring

theorem registerLaw_reg {w : Nat} (hp1 : 1 ≤ p) (hp : p ≤ w) (hw : w ≤ 64) :
    RegisterLaw w p n (fun h j => reg w p (hashSet w h) j) where
  one j hj k hk := by
    rw [fraction_eq_mean, ← mean_reg_le n (by omega) hw hj]
    congr! 3
  two i hi j hj hij k hk l hl := by
    rw [fraction_eq_mean, sub_sub, ← mean_reg_le_two n (by omega) (by omega) hw hi hj hij]
    congr! 2 with h
    by_cases h1 : reg w p (hashSet w h) i ≤ k <;> by_cases h2 : reg w p (hashSet w h) j ≤ l <;>
      simp [h1, h2]
  top h j := reg_le _ _ _ _
  mean_eq := by rw [← moment_half_eq]; exact mean_harm n hp hw
  variance_le e he := by
    rw [← moment_half_eq] at he
    subst he
    rw [← moment_quarter_eq]
    exact variance_harm n hp1 hp hw

/-- **C50** for `HyperLogLogPF`: the distribution of the registers after `n` insertions. -/
theorem C50_pf_registers (hcfg : cfg.usizeBits = 64) (c : Serde.Codec (Fin n)) (h1 : 4 ≤ p)
    (h2 : p ≤ 16) :
    ∃ M : (Fin n → Fin (2 ^ 64)) → ℕ → ℕ,
      (∀ h, ∃ st os s, run (PF.api cfg ln c) ords 0 [] (insertAll p h) = .ok (st, os) ∧
        st[0]? = some s ∧ (s.registers.iter 5).map BitVec.toNat = (List.range (2 ^ p)).map (M h)) ∧
      RegisterLaw 32 p n M := by
  refine ⟨fun h j => reg 32 p (hashSet 32 h) j, fun h => ?_,
    registerLaw_reg (by omega) (by omega) (by omega)⟩
  have hs : Supported cfg c (insertAll p h) := supported64 hcfg c (by simp [insertAll])
  obtain ⟨s, st, os, h3⟩ := reachPF_exists (ln := ln) (ords := ords) hs
    (contents_insertAll h1 h2 h)
  have h4 := (ReachPF.means hs ⟨st, os, h3⟩).1
  exact ⟨st, os, s, h3.1, h3.2.1, h4.rep.iter_eq (Or.inl rfl)⟩

/-- **C50** for `HyperLogLogPlus`: the same for the registers of a dense sketch, and of the sketch
created by `new` whenever it is dense. -/
theorem C50_plus_registers (hcfg : cfg.usizeBits = 64) (c : Serde.Codec (Fin n)) (h1 : 4 ≤ p)
    (h2 : p ≤ 18) (ord : IterOrder) :
    ∃ M : (Fin n → Fin (2 ^ 64)) → ℕ → ℕ,
      (∀ h, ∃ s₀ s r, emptyDense cfg p (builderOf h) = .ok s₀ ∧
        insertHashes cfg ord ((List.finRange n).map (builderOf h)) s₀ = .ok s ∧
        s.registers = some r ∧ (r.iter 6).map BitVec.toNat = (List.range (2 ^ p)).map (M h)) ∧
      (∀ h, ∃ st os s, run (Plus.api cfg ln c) ords 0 [] (insertAll p h) = .ok (st, os) ∧
        st[0]? = some s ∧ ∀ r, s.registers = some r →
          (r.iter 6).map BitVec.toNat = (List.range (2 ^ p)).map (M h)) ∧
      RegisterLaw 64 p n M := by
  refine ⟨fun h j => reg 64 p (hashSet 64 h) j, fun h => ?_, fun h => ?_,
    registerLaw_reg (by omega) (by omega) (by omega)⟩
  · have hbits : 32 ≤ cfg.usizeBits := by omega
    obtain ⟨hb1, hb2⟩ := Plus.pow_bounds cfg hbits h2
    obtain ⟨r0, e1, e2⟩ := Registers.rep_withCount cfg (S := 6) (Or.inr rfl) (n := 2 ^ p) (by omega)
    have e2' : Registers.Rep 6 r0 (2 ^ p) (reg 64 p ∅) :=
      e2.congr (fun j _ => (reg_empty 64 p j).symm)
    obtain ⟨s', r', e3, e4, e5⟩ := insertHashes_dense cfg hbits ord h1 h2
      ((List.finRange n).map (builderOf h))
      (s := ⟨builderOf h, p, (2 ^ p, 2 ^ 24, capacity p), [], DifIntVec.new, some r0⟩) rfl rfl e2'
    rw [Finset.empty_union, ← hashSet_64] at e5
    exact ⟨_, s', r', by rw [emptyDense, e1]; rfl, e3, e4, e5.iter_eq (Or.inr rfl)⟩
  · have hs : Supported cfg c (insertAll p h) := supported64 hcfg c (by simp [insertAll])
    obtain ⟨s, st, os, h3⟩ := reachPlus_exists (ln := ln) (ords := ords) hs
      (contents_insertAll h1 h2 h)
    refine ⟨st, os, s, h3.1, h3.2.1, fun r hr => ?_⟩
    obtain ⟨⟨_, h4⟩, _, _⟩ := ReachPlus.means hs ⟨st, os, h3⟩
    rcases h4 with ⟨L, h4, _⟩ | ⟨r', h4⟩
    · rw [h4.regs] at hr; cases hr
    · rw [h4.regs] at hr
      cases hr
      exact h4.rep.iter_eq (Or.inr rfl)

/-- An instance: 10 values in 16 registers; register 3 is at most 2 with probability `(63/64)^10`. -/
example : ∃ M : (Fin 10 → Fin (2 ^ 64)) → ℕ → ℕ,
    (∀ h, ∃ st os s, run (PF.api Cfg.debug64 id (noCodec (Fin 10)))
        (fun _ => (IterOrder.id, IterOrder.id)) 0 [] (insertAll 4 h) = .ok (st, os) ∧
      st[0]? = some s ∧ (s.registers.iter 5).map BitVec.toNat = (List.range (2 ^ 4)).map (M h)) ∧
    fraction (fun h => M h 3 ≤ 2) = (63 / 64) ^ 10 := by
  obtain ⟨M, h1, h2⟩ := C50_pf_registers (cfg := Cfg.debug64) (ln := id) (n := 10) (p := 4)
    (ords := fun _ => (IterOrder.id, IterOrder.id)) rfl (noCodec (Fin 10)) (by norm_num)
    (by norm_num)
  refine ⟨M, h1, (h2.one 3 (by norm_num) 2 (by norm_num)).trans (by norm_num)⟩

/-! ## C51: accuracy of `HyperLogLogPlus::count` for large cardinalities -/

/-- The raw estimate is near `n` if the harmonic sum is near its mean. -/
theorem raw_near {w : Nat} (h1 : 4 ≤ p) (h2 : p ≤ 18) (hpw : p ≤ w) (hwp : w - p < 63)
    (h5 : 5 * 2 ^ p ≤ n) (hn : 60 * n ≤ 2 ^ (w + 1)) {δ : ℝ} (hδ0 : 0 < δ) (hδ : δ ≤ 1 / 2)
    {h : Fin n → Fin (2 ^ 64)}
    (hgood : |harm w p h - 2 ^ p * moment w p n (1 / 2)| < δ / (1 + δ) * (2 ^ p * moment w p n (1 / 2))) :
    |(rawQ p (hsum 0 (regs w p (hashSet w h))) : ℝ) - n| ≤ (δ + 1.1 / 2 ^ p + 0.001) * n := by
  obtain ⟨c1, c2, c3⟩ := centre_near (w := w) h1 h2 hpw h5 hn
  have h3 := raw_good h1 h2 hδ0 hwp hgood
  have hn0 : (0 : ℝ) ≤ n := Nat.cast_nonneg n
  obtain ⟨r1, r2⟩ := abs_le.1 h3
  have hs : (δ + (1 + δ) / 2 ^ 32) * centre w p n ≤ (δ + 0.00035) * n := by
    calc (δ + (1 + δ) / 2 ^ 32) * centre w p n ≤ (δ + (1 + δ) / 2 ^ 32) * (1.0006 * n) := by
          gcongr
      _ = ((δ + (1 + δ) / 2 ^ 32) * 1.0006) * n := by ring
      _ ≤ _ := by
          refine mul_le_mul_of_nonneg_right ?_ hn0
          norm_num; linarith
  have hq : 0 ≤ 1.1 / (2 : ℝ) ^ p * n := by positivity
  rw [abs_le]
  constructor
  · have e : -((δ + 1.1 / 2 ^ p + 0.001) * (n : ℝ)) + n =
        (1 - 0.00065 - 1.1 / 2 ^ p) * n - (δ + 0.00035) * n := by ring
    linarith
  · have e : (δ + 1.1 / 2 ^ p + 0.001) * (n : ℝ) + n =
        1.0006 * n + (δ + 0.00035) * n + 1.1 / 2 ^ p * n + 0.00005 * n := by ring
    linarith

/-- The raw estimate is near `n`. -/
theorem raw_accurate {w : Nat} (h1 : 4 ≤ p) (h2 : p ≤ 18) (hpw : p ≤ w) (hw : w ≤ 64) (hwp : w - p < 63)
    (h5 : 5 * 2 ^ p ≤ n) (hn : 60 * n ≤ 2 ^ (w + 1)) {δ : ℝ} (hδ0 : 0 < δ) (hδ : δ ≤ 1 / 2) :
    fraction (fun h : Fin n → Fin (2 ^ 64) =>
        ¬ |(rawQ p (hsum 0 (regs w p (hashSet w h))) : ℝ) - n| ≤ (δ + 1.1 / 2 ^ p + 0.001) * n) ≤
      (1.09 + 4 / 2 ^ p) * (1 + δ) ^ 2 / (2 ^ p * δ ^ 2) := by
  obtain ⟨c1, c2, c3⟩ := centre_near (w := w) h1 h2 hpw h5 hn
  refine le_trans (fraction_mono fun h hh => ?_)
    ((raw_deviation (w := w) n (by omega) hpw hw hδ0).trans ?_)
  · by_contra hcon
    rw [not_le] at hcon
    exact hh (raw_near h1 h2 hpw hwp h5 hn hδ0 hδ hcon)
  · gcongr

theorem hashSet_lt (h : Fin n → Fin (2 ^ 64)) : ∀ x ∈ hashSet 64 h, x < 2 ^ 64 := by
  intro x hx
  unfold hashSet at hx
  obtain ⟨i, _, rfl⟩ := Finset.mem_image.1 hx
  exact Nat.mod_lt _ (by norm_num)

/-- **C51.** Insert `n ≤ 2^59` values with random hashes into a fresh `HyperLogLogPlus` with
`m = 2^p` registers and call `count`.  For `δ ≤ 1/2` let `ε = δ + 1.1/m + 0.001`; if
`(1 - ε) n > 5m`, the relative error of the result is at most `ε`, except with probability at most
`(1.09 + 4/m) (1 + δ)² / (m δ²)`. -/
theorem C51_plus_accuracy_large (hln : LnSpec ln) (hcfg : cfg.usizeBits = 64)
    (c : Serde.Codec (Fin n)) (h1 : 4 ≤ p) (h2 : p ≤ 18) {δ : ℝ} (hδ0 : 0 < δ) (hδ : δ ≤ 1 / 2)
    (h5 : 5 * 2 ^ p < (1 - (δ + 1.1 / 2 ^ p + 0.001)) * n) (hn : n ≤ 2 ^ 59) :
    fraction (fun h : Fin n → Fin (2 ^ 64) => ¬ ∃ y : ℚ,
        later (Plus.api cfg ln c) ords (insertAll p h) [.count 0] = .ok [.count (fin y)] ∧
        |(y : ℝ) - n| ≤ (δ + 1.1 / 2 ^ p + 0.001) * n) ≤
      (1.09 + 4 / 2 ^ p) * (1 + δ) ^ 2 / (2 ^ p * δ ^ 2) := by
  have hn0 : (0 : ℝ) ≤ n := Nat.cast_nonneg n
  have hε : 0 ≤ δ + 1.1 / 2 ^ p + 0.001 := by positivity
  have h5' : 5 * 2 ^ p ≤ n := by
    have : 5 * (2 : ℝ) ^ p ≤ n := by nlinarith
    exact_mod_cast this
  refine le_trans (fraction_mono fun h hh => ?_)
    (raw_accurate (w := 64) h1 h2 (by omega) le_rfl (by omega) h5' (by omega) hδ0 hδ)
  intro hcon
  apply hh
  have hs : Supported cfg c (insertAll p h) := supported64 hcfg c (by simp [insertAll])
  refine ⟨_, ?_, hcon⟩
  rw [plus_count_val hs (contents_insertAll h1 h2 h)]
  rw [plusCount_raw hln cfg.search h1 h2 (hashSet_lt h)]
  have : 5 * (2 : ℝ) ^ p < (rawQ p (hsum 0 (regs 64 p (hashSet 64 h))) : ℝ) := by
    have := (abs_le.1 hcon).1
    linarith
  have h6 : ((5 * (2 : ℚ) ^ p : ℚ) : ℝ) < (rawQ p (hsum 0 (regs 64 p (hashSet 64 h))) : ℝ) := by
    push_cast; exact this
  exact_mod_cast h6

/-- An instance: `2^14` registers, a billion values; the relative error is below 3.2 % with
probability at least 92 %. -/
example (hln : LnSpec ln) : fraction (fun h : Fin 1000000000 → Fin (2 ^ 64) => ¬ ∃ y : ℚ,
    later (Plus.api Cfg.debug64 ln (noCodec (Fin 1000000000))) ords (insertAll 14 h) [.count 0] =
      .ok [.count (fin y)] ∧ |(y : ℝ) - (1000000000 : ℕ)| ≤ 0.032 * (1000000000 : ℕ)) ≤ 0.08 := by
  have h := C51_plus_accuracy_large (ords := ords) (cfg := Cfg.debug64) (n := 1000000000) (p := 14)
    (δ := 0.03) hln rfl (noCodec (Fin 1000000000)) (by norm_num) (by norm_num) (by norm_num)
    (by norm_num) (by norm_num) (by norm_num)
  refine le_trans (fraction_mono fun x hx => ?_) (h.trans (by norm_num))
  rintro ⟨y, e1, e2⟩
  exact hx ⟨y, e1, e2.trans (by norm_num)⟩

/-! ## C52: accuracy of `HyperLogLogPF::count` in its middle range -/

/-- **C52.** Insert `n ≥ 5m` values with random hashes into a fresh `HyperLogLogPF` with `m = 2^p`
registers and call `count`.  For `δ ≤ 0.4` let `ε = δ + 1.1/m + 0.001`; if `(1 + ε) n ≤ 2^32/30`, the
relative error of the result is at most `ε`, except with probability at most
`(1.09 + 4/m) (1 + δ)² / (m δ²)`. -/
theorem C52_pf_accuracy_middle (hcfg : cfg.usizeBits = 64)
    (c : Serde.Codec (Fin n)) (h1 : 4 ≤ p) (h2 : p ≤ 16) {δ : ℝ} (hδ0 : 0 < δ) (hδ : δ ≤ 0.4)
    (h5 : 5 * 2 ^ p ≤ n) (hn : (1 + (δ + 1.1 / 2 ^ p + 0.001)) * n ≤ 2 ^ 32 / 30) :
    fraction (fun h : Fin n → Fin (2 ^ 64) => ¬ ∃ y : ℚ,
        later (PF.api cfg ln c) ords (insertAll p h) [.count 0] = .ok [.count (fin y)] ∧
        |(y : ℝ) - n| ≤ (δ + 1.1 / 2 ^ p + 0.001) * n) ≤
      (1.09 + 4 / 2 ^ p) * (1 + δ) ^ 2 / (2 ^ p * δ ^ 2) := by
  have hn0 : (0 : ℝ) ≤ n := Nat.cast_nonneg n
  have hm : (16 : ℝ) ≤ 2 ^ p := by
    calc (16 : ℝ) = 2 ^ 4 := by norm_num
      _ ≤ 2 ^ p := pow_le_pow_right₀ (by norm_num) h1
  have hε : 0 ≤ δ + 1.1 / 2 ^ p + 0.001 := by positivity
  have hε2 : δ + 1.1 / 2 ^ p + 0.001 < 1 / 2 := by
    have : 1.1 / (2 : ℝ) ^ p ≤ 1.1 / 16 := by gcongr
    norm_num at this hδ ⊢; linarith
  have h5' : 5 * (2 : ℝ) ^ p ≤ n := by exact_mod_cast h5
  have hn' : 60 * n ≤ 2 ^ (32 + 1) := by
    have : 60 * (n : ℝ) ≤ 2 ^ (32 + 1) := by
      have : (n : ℝ) ≤ 2 ^ 32 / 30 := by nlinarith
      norm_num at this ⊢; linarith
    exact_mod_cast this
  refine le_trans (fraction_mono fun h hh => ?_)
    (raw_accurate (w := 32) h1 (by omega) (by omega) (by omega) (by omega) h5 hn' hδ0
      (by norm_num at hδ ⊢; linarith))
  intro hcon
  apply hh
  have hs : Supported cfg c (insertAll p h) := supported64 hcfg c (by simp [insertAll])
  refine ⟨_, ?_, hcon⟩
  rw [pf_count_val hs (contents_insertAll h1 h2 h)]
  obtain ⟨q1, q2⟩ := abs_le.1 hcon
  rw [pfCount_raw h1 h2]
  · have : 5 / 2 * (2 : ℝ) ^ p < (rawQ p (hsum 0 (regs 32 p (hashSet 32 h))) : ℝ) := by
      have : (δ + 1.1 / 2 ^ p + 0.001) * (n : ℝ) < 1 / 2 * n := by
        apply mul_lt_mul_of_pos_right hε2; linarith
      linarith
    have h6 : ((5 / 2 * (2 : ℚ) ^ p : ℚ) : ℝ) < (rawQ p (hsum 0 (regs 32 p (hashSet 32 h))) : ℝ) := by
      push_cast; exact this
    exact_mod_cast h6
  · have : (rawQ p (hsum 0 (regs 32 p (hashSet 32 h))) : ℝ) ≤ 2 ^ 32 / 30 := by linarith
    have h6 : (rawQ p (hsum 0 (regs 32 p (hashSet 32 h))) : ℝ) ≤ ((2 ^ 32 / 30 : ℚ) : ℝ) := by
      push_cast; exact this
    exact_mod_cast h6

/-- An instance: `2^16` registers, ten million values; the relative error is below 2.2 % with
probability at least 95 %. -/
example : fraction (fun h : Fin 10000000 → Fin (2 ^ 64) => ¬ ∃ y : ℚ,
    later (PF.api Cfg.debug64 ln (noCodec (Fin 10000000))) ords (insertAll 16 h) [.count 0] =
      .ok [.count (fin y)] ∧ |(y : ℝ) - (10000000 : ℕ)| ≤ 0.022 * (10000000 : ℕ)) ≤ 0.05 := by
  have h := C52_pf_accuracy_middle (ords := ords) (ln := ln) (cfg := Cfg.debug64) (n := 10000000)
    (p := 16) (δ := 0.02) rfl (noCodec (Fin 10000000)) (by norm_num) (by norm_num) (by norm_num)
    (by norm_num) (by norm_num) (by norm_num)
  refine le_trans (fraction_mono fun x hx => ?_) (h.trans (by norm_num))
  rintro ⟨y, e1, e2⟩
  exact hx ⟨y, e1, e2.trans (by norm_num)⟩

end HLL
