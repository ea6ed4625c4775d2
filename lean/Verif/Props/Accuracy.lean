import Verif.Proofs.Accuracy
import Verif.Props.Average
import Verif.Props.Numeric

/-!
# C44–C47: deviation from the average, and accuracy of `count`

As in C42 every assignment `h : Fin n → Fin (2^64)` of hashes to the values `0, …, n-1` is equally
likely.  `fraction P` is the probability of `P`.
-/

namespace HLL
open Spec F64

open Classical in
/-- The fraction of the assignments of hashes to `n` values that satisfy `P`. -/
noncomputable def fraction {n : Nat} (P : (Fin n → Fin (2 ^ 64)) → Prop) : ℝ :=
  ((Finset.univ.filter P).card : ℝ) / Fintype.card (Fin n → Fin (2 ^ 64))

theorem fraction_mono {n : Nat} {P Q : (Fin n → Fin (2 ^ 64)) → Prop} (h : ∀ x, P x → Q x) :
    fraction P ≤ fraction Q := by
  unfold fraction
  gcongr
  exact fun hx => h _ hx

theorem fraction_or {n : Nat} (P Q : (Fin n → Fin (2 ^ 64)) → Prop) :
    fraction (fun h => P h ∨ Q h) ≤ fraction P + fraction Q := by
  classical
  unfold fraction
  rw [← add_div]
  gcongr
  rw [← Nat.cast_add, Nat.cast_le]
  refine le_trans (le_of_eq ?_) (Finset.card_union_le _ _)
  rw [← Finset.filter_or]
  congr!

theorem fraction_zeros {w p : Nat} (hp1 : 1 ≤ p) (hp : p ≤ w) (hw : w ≤ 64) (n : Nat) {t : ℝ}
    (ht : 0 < t) :
    fraction (fun h : Fin n → Fin (2 ^ 64) =>
        t ≤ |(zeros w p (hashSet w h) : ℝ) - 2 ^ p * (1 - 1 / 2 ^ p) ^ n|) ≤
      2 ^ p * ((1 - 1 / 2 ^ p) ^ n * (1 - (1 - 1 / 2 ^ p) ^ n)) / t ^ 2 := by
  have := chebyshev_zeros hp1 hp hw n ht
  unfold fraction
  convert this

theorem fraction_codes (p n : Nat) {a : ℝ} (ha : 0 < a) :
    fraction (fun h : Fin n → Fin (2 ^ 64) => ((codes p (hashSet 64 h)).card : ℝ) + a ≤ n) ≤
      n * (n - 1) / (2 ^ 26 * a) := by
  have := markov_codes p n ha
  unfold fraction
  convert this

variable {cfg : Cfg} {ln : F64 → F64} {ords : Nat → IterOrder × IterOrder} {p n : Nat}

/-! ## C44: variance of the number of empty registers -/

/-- **C44** for `HyperLogLogPF`: the variance of the zero counter `Z` after `n` insertions, with
`m = 2^p`, is exactly `m q^n + m (m-1) (1 - 2/m)^n - (m q^n)^2`, `q = 1 - 1/m`; and `Z` is within
`t` of its average except with probability at most `m q^n (1 - q^n) / t^2`. -/
theorem C44_pf_zeros_variance (hcfg : cfg.usizeBits = 64) (c : Serde.Codec (Fin n)) (h1 : 4 ≤ p)
    (h2 : p ≤ 16) :
    ∃ Z : (Fin n → Fin (2 ^ 64)) → ℕ,
      (∀ h, ∃ st os s, run (PF.api cfg ln c) ords 0 [] (insertAll p h) = .ok (st, os) ∧
        st[0]? = some s ∧ s.registers.zeros = Z h) ∧
      (∑ h, ((Z h : ℝ) - 2 ^ p * (1 - 1 / 2 ^ p) ^ n) ^ (2 : ℕ)) /
          Fintype.card (Fin n → Fin (2 ^ 64)) =
        2 ^ p * (1 - 1 / 2 ^ p) ^ n + 2 ^ p * (2 ^ p - 1) * (1 - 2 / 2 ^ p) ^ n -
          (2 ^ p * (1 - 1 / 2 ^ p) ^ n) ^ 2 ∧
      ∀ t : ℝ, 0 < t → fraction (fun h => t ≤ |(Z h : ℝ) - 2 ^ p * (1 - 1 / 2 ^ p) ^ n|) ≤
        2 ^ p * ((1 - 1 / 2 ^ p) ^ n * (1 - (1 - 1 / 2 ^ p) ^ n)) / t ^ 2 := by
  refine ⟨fun h => zeros 32 p (hashSet 32 h), fun h => ?_,
    variance_zeros (by omega) (by omega) (by omega) n,
    fun t ht => fraction_zeros (by omega) (by omega) (by omega) n ht⟩
  have hs : Supported cfg c (insertAll p h) := supported64 hcfg c (by simp [insertAll])
  obtain ⟨s, st, os, h3⟩ := reachPF_exists (ln := ln) (ords := ords) hs
    (contents_insertAll h1 h2 h)
  exact ⟨st, os, s, h3.1, h3.2.1, (C16_pf_zeros hs ⟨st, os, h3⟩).2⟩

/-- **C44** for `HyperLogLogPlus`: the same for the zero counter of a dense sketch, and of the
sketch created by `new` whenever it is dense. -/
theorem C44_plus_zeros_variance (hcfg : cfg.usizeBits = 64) (c : Serde.Codec (Fin n)) (h1 : 4 ≤ p)
    (h2 : p ≤ 18) (ord : IterOrder) :
    ∃ Z : (Fin n → Fin (2 ^ 64)) → ℕ,
      (∀ h, ∃ s₀ s r, emptyDense cfg p (builderOf h) = .ok s₀ ∧
        insertHashes cfg ord ((List.finRange n).map (builderOf h)) s₀ = .ok s ∧
        s.registers = some r ∧ r.zeros = Z h) ∧
      (∀ h, ∃ st os s, run (Plus.api cfg ln c) ords 0 [] (insertAll p h) = .ok (st, os) ∧
        st[0]? = some s ∧ ∀ r, s.registers = some r → r.zeros = Z h) ∧
      (∑ h, ((Z h : ℝ) - 2 ^ p * (1 - 1 / 2 ^ p) ^ n) ^ (2 : ℕ)) /
          Fintype.card (Fin n → Fin (2 ^ 64)) =
        2 ^ p * (1 - 1 / 2 ^ p) ^ n + 2 ^ p * (2 ^ p - 1) * (1 - 2 / 2 ^ p) ^ n -
          (2 ^ p * (1 - 1 / 2 ^ p) ^ n) ^ 2 ∧
      ∀ t : ℝ, 0 < t → fraction (fun h => t ≤ |(Z h : ℝ) - 2 ^ p * (1 - 1 / 2 ^ p) ^ n|) ≤
        2 ^ p * ((1 - 1 / 2 ^ p) ^ n * (1 - (1 - 1 / 2 ^ p) ^ n)) / t ^ 2 := by
  refine ⟨fun h => zeros 64 p (hashSet 64 h), fun h => ?_, fun h => ?_,
    variance_zeros (by omega) (by omega) (by omega) n,
    fun t ht => fraction_zeros (by omega) (by omega) (by omega) n ht⟩
  · have hbits : 32 ≤ cfg.usizeBits := by omega
    obtain ⟨hb1, hb2⟩ := Plus.pow_bounds cfg hbits h2
    obtain ⟨r0, e1, e2⟩ := Registers.rep_withCount cfg (S := 6) (Or.inr rfl) (n := 2 ^ p) (by omega)
    have e2' : Registers.Rep 6 r0 (2 ^ p) (reg 64 p ∅) :=
      e2.congr (fun j _ => (reg_empty 64 p j).symm)
    obtain ⟨s', r', e3, e4, e5⟩ := insertHashes_dense cfg hbits ord h1 h2
      ((List.finRange n).map (builderOf h))
      (s := ⟨builderOf h, p, (2 ^ p, 2 ^ 24, capacity p), [], DifIntVec.new, some r0⟩) rfl rfl e2'
    rw [Finset.empty_union, ← hashSet_64] at e5
    exact ⟨_, s', r', by rw [emptyDense, e1]; rfl, e3, e4, e5.zeros_eq⟩
  · have hs : Supported cfg c (insertAll p h) := supported64 hcfg c (by simp [insertAll])
    obtain ⟨s, st, os, h3⟩ := reachPlus_exists (ln := ln) (ords := ords) hs
      (contents_insertAll h1 h2 h)
    exact ⟨st, os, s, h3.1, h3.2.1, fun r hr => (C16_plus_zeros hs ⟨st, os, h3⟩ hr).2⟩

/-- An instance: 16 registers, 16 values; the zero counter is 8 or more away from its average with
probability at most `4/64`. -/
example : ∃ Z : (Fin 16 → Fin (2 ^ 64)) → ℕ,
    (∀ h, ∃ st os s, run (PF.api Cfg.debug64 id (noCodec (Fin 16)))
        (fun _ => (IterOrder.id, IterOrder.id)) 0 [] (insertAll 4 h) = .ok (st, os) ∧
      st[0]? = some s ∧ s.registers.zeros = Z h) ∧
    fraction (fun h => 8 ≤ |(Z h : ℝ) - 2 ^ 4 * (1 - 1 / 2 ^ 4) ^ 16|) ≤ 4 / 64 := by
  obtain ⟨Z, h1, _, h2⟩ := C44_pf_zeros_variance (cfg := Cfg.debug64) (ln := id) (n := 16) (p := 4)
    (ords := fun _ => (IterOrder.id, IterOrder.id)) rfl (noCodec (Fin 16)) (by norm_num)
    (by norm_num)
  exact ⟨Z, h1, (h2 8 (by norm_num)).trans (by norm_num)⟩

/-! ## C45: loss of values in sparse mode -/

/-- **C45.** Let `n ≥ 1` values be inserted into a fresh `HyperLogLogPlus` and `count` be called.
If the sketch is then still sparse, its sparse list has `C h` entries; the average of `C` over all
assignments of hashes is between `n - n(n-1)/2^26` and `n`, and the probability that `a` or more
values are lost is at most `n(n-1)/(2^26 a)`. -/
theorem C45_sparse_loss (hln : LnSpec ln) (hcfg : cfg.usizeBits = 64) (c : Serde.Codec (Fin n))
    (h1 : 4 ≤ p) (h2 : p ≤ 18) (hn : 0 < n) :
    ∃ C : (Fin n → Fin (2 ^ 64)) → ℕ,
      (∀ h, ∃ st os s, run (Plus.api cfg ln c) ords 0 [] (insertAll p h) = .ok (st, os) ∧
        st[0]? = some s ∧ ∀ ord s' x, Plus.count cfg ln ord s = .ok (s', x) →
          s'.isSparse = true → s'.sparse.count = C h) ∧
      (n : ℝ) - n * (n - 1) / 2 ^ 26 ≤ (∑ h, (C h : ℝ)) / Fintype.card (Fin n → Fin (2 ^ 64)) ∧
      (∀ h, C h ≤ n) ∧
      ∀ a : ℝ, 0 < a → fraction (fun h => (C h : ℝ) + a ≤ n) ≤ n * (n - 1) / (2 ^ 26 * a) := by
  refine ⟨fun h => (codes p (hashSet 64 h)).card, fun h => ?_, average_codes p n,
    card_codes_le p, fun a ha => fraction_codes p n ha⟩
  have hs : Supported cfg c (insertAll p h) := supported64 hcfg c (by simp [insertAll])
  obtain ⟨s, st, os, h3⟩ := reachPlus_exists (ln := ln) (ords := ords) hs
    (contents_insertAll h1 h2 h)
  refine ⟨st, os, s, h3.1, h3.2.1, fun ord s' x hc hsp => ?_⟩
  have hne : (hashSet 64 h).Nonempty :=
    ⟨_, Finset.mem_image_of_mem _ (Finset.mem_univ (⟨0, hn⟩ : Fin n))⟩
  exact (C24_sparse_accurate hln hs ⟨st, os, h3⟩ hc hsp hne).1

/-! ## C46: accuracy of `HyperLogLogPlus::count` -/

/-- **C46.** Insert `n` values with random hashes into a fresh `HyperLogLogPlus` and call `count`.
Let `m = 2^p` and `μ = m (1 - 1/m)^n`.  For every `t < μ` and `a > 0` such that the estimates in
question stay below the threshold for linear counting, the result is a number within
`max (linErrF p n t) (max a (n²/(2^24 - n)))` of `n`, except with probability at most
`m q^n (1 - q^n)/t² + n(n-1)/(2^26 a)`.  (`linErrF` is `n/(m-1) + m t/(μ - t)` plus rounding.) -/
theorem C46_plus_accuracy (hln : LnSpec ln) (hcfg : cfg.usizeBits = 64)
    (c : Serde.Codec (Fin n)) (h1 : 4 ≤ p) (h2 : p ≤ 18) {t a : ℝ} (ht0 : 0 < t)
    (ht : t < 2 ^ p * (1 - 1 / 2 ^ p) ^ n) (hthr : n + linErrF p n t ≤ threshold p) (ha : 0 < a) :
    fraction (fun h : Fin n → Fin (2 ^ 64) => ¬ ∃ y : ℚ,
        later (Plus.api cfg ln c) ords (insertAll p h) [.count 0] = .ok [.count (fin y)] ∧
        |(y : ℝ) - n| ≤ max (linErrF p n t) (max a (n ^ 2 / (2 ^ 24 - n)))) ≤
      2 ^ p * ((1 - 1 / 2 ^ p) ^ n * (1 - (1 - 1 / 2 ^ p) ^ n)) / t ^ 2 +
        n * (n - 1) / (2 ^ 26 * a) := by
  refine le_trans (le_trans (fraction_mono fun h hh => ?_) (fraction_or _ _))
    (add_le_add (fraction_zeros (w := 64) (by omega) (by omega) le_rfl n ht0) (fraction_codes p n ha))
  by_contra hcon
  rw [not_or, not_le, not_le] at hcon
  have hs : Supported cfg c (insertAll p h) := supported64 hcfg c (by simp [insertAll])
  obtain ⟨y, e1, e2⟩ := plusCount_accurate hln h1 h2 ht0 ht hthr (card_codes_le p h) hcon.1 hcon.2
  exact hh ⟨y, by rw [plus_count_val hs (contents_insertAll h1 h2 h), e1], e2⟩

theorem half_facts (h1 : 4 ≤ p) (h2 : p ≤ 18) (hn : 2 * n ≤ 2 ^ p) {δ : ℝ} (hδ0 : 0 < δ)
    (hδ : δ ≤ 1 / 3) :
    3 / 10 * 2 ^ p + 3 / 8 * δ * 2 ^ p ≤ 2 ^ p * (1 - 1 / 2 ^ p) ^ n ∧
    linErrF p n (3 / 8 * δ * 2 ^ p) ≤ δ * 2 ^ p + 1 ∧
    2 ^ p * ((1 - 1 / 2 ^ p) ^ n * (1 - (1 - 1 / 2 ^ p) ^ n)) / (3 / 8 * δ * 2 ^ p) ^ 2 ≤
      16 / (9 * 2 ^ p * δ ^ 2) := by
  have hm : (16 : ℝ) ≤ 2 ^ p := by
    calc (16 : ℝ) = 2 ^ 4 := by norm_num
      _ ≤ 2 ^ p := pow_le_pow_right₀ (by norm_num) h1
  have hm2 : (2 : ℝ) ^ p ≤ 2 ^ 18 := pow_le_pow_right₀ (by norm_num) h2
  have hn' : 2 * (n : ℝ) ≤ 2 ^ p := by exact_mod_cast hn
  have hn0 : (0 : ℝ) ≤ n := Nat.cast_nonneg _
  unfold linErrF linErr
  generalize (2 : ℝ) ^ p = m at *
  have hm0 : 0 < m := by linarith
  have hq : 1 / 2 ≤ (1 - 1 / m) ^ n := by
    have hb := one_add_mul_le_pow (a := -(1 / m)) (by
      have : 1 / m ≤ 1 := by rw [div_le_one hm0]; linarith
      linarith) n
    rw [← sub_eq_add_neg] at hb
    refine le_trans ?_ hb
    have : n * (1 / m) ≤ 1 / 2 := by
      rw [mul_one_div, div_le_iff₀ hm0]; linarith
    linarith
  generalize (1 - 1 / m) ^ n = q at *
  have hδm : δ * m ≤ 1 / 3 * m := by gcongr
  have hδm0 : 0 < δ * m := by positivity
  have hqm : 1 / 2 * m ≤ m * q := by nlinarith
  refine ⟨by nlinarith, ?_, ?_⟩
  · have hA : (n : ℝ) / (m - 1) ≤ 8 / 15 := by
      rw [div_le_div_iff₀ (by linarith) (by norm_num)]; linarith
    have hB : m * (3 / 8 * δ * m) / (m * q - 3 / 8 * δ * m) ≤ δ * m := by
      rw [div_le_iff₀ (by linarith)]
      nlinarith
    have h18 : (2 : ℝ) ^ 18 = 262144 := by norm_num
    rw [h18] at hm2
    generalize (n : ℝ) / (m - 1) = A at *
    generalize m * (3 / 8 * δ * m) / (m * q - 3 / 8 * δ * m) = B at *
    norm_num
    linarith
  · rw [div_le_div_iff₀ (by positivity) (by positivity)]
    have : q * (1 - q) ≤ 1 / 4 := by nlinarith [sq_nonneg (q - 1 / 2)]
    calc m * (q * (1 - q)) * (9 * m * δ ^ 2) ≤ m * (1 / 4) * (9 * m * δ ^ 2) := by gcongr
      _ = 16 * (3 / 8 * δ * m) ^ 2 := by ring

/-- **C46**, a simple special case: with `n ≤ m/2` and `δ ≤ 1/3`, as long as `n + δ m + 1` is below
the threshold for linear counting, the result of `count` differs from `n` by more than
`max (δ m + 1) (n²/(2^24 - n))` with probability at most `16/(9 m δ²) + n(n-1)/(2^26 δ m)`. -/
theorem C46_plus_simple (hln : LnSpec ln) (hcfg : cfg.usizeBits = 64)
    (c : Serde.Codec (Fin n)) (h1 : 4 ≤ p) (h2 : p ≤ 18) (hn : 2 * n ≤ 2 ^ p) {δ : ℝ}
    (hδ0 : 0 < δ) (hδ : δ ≤ 1 / 3) (hthr : n + δ * 2 ^ p + 1 ≤ threshold p) :
    fraction (fun h : Fin n → Fin (2 ^ 64) => ¬ ∃ y : ℚ,
        later (Plus.api cfg ln c) ords (insertAll p h) [.count 0] = .ok [.count (fin y)] ∧
        |(y : ℝ) - n| ≤ max (δ * 2 ^ p + 1) (n ^ 2 / (2 ^ 24 - n))) ≤
      16 / (9 * 2 ^ p * δ ^ 2) + n * (n - 1) / (2 ^ 26 * (δ * 2 ^ p)) := by
  obtain ⟨f1, f2, f3⟩ := half_facts h1 h2 hn hδ0 hδ
  have hm0 : (0 : ℝ) < 2 ^ p := by positivity
  refine le_trans (fraction_mono fun h hh => ?_) (le_trans (C46_plus_accuracy (ords := ords) hln hcfg c h1 h2
    (t := 3 / 8 * δ * 2 ^ p) (a := δ * 2 ^ p) (by positivity) (by linarith)
    (by linarith) (by positivity)) (add_le_add f3 le_rfl))
  rintro ⟨y, e1, e2⟩
  refine hh ⟨y, e1, e2.trans (max_le (f2.trans (le_max_left _ _)) (max_le ?_ (le_max_right _ _)))⟩
  exact le_trans (by linarith) (le_max_left _ _)

/-- An instance: `2^18` registers, 100000 values; the relative error is below 3 % with probability
at least 89 %. -/
example (hln : LnSpec ln) : fraction (fun h : Fin 100000 → Fin (2 ^ 64) => ¬ ∃ y : ℚ,
    later (Plus.api Cfg.debug64 ln (noCodec (Fin 100000))) ords (insertAll 18 h) [.count 0] =
      .ok [.count (fin y)] ∧ |(y : ℝ) - (100000 : ℕ)| ≤ 3000) ≤ 0.11 := by
  have h := C46_plus_simple (ords := ords) (cfg := Cfg.debug64) (n := 100000) (p := 18) (δ := 0.0114)
    hln rfl (noCodec (Fin 100000)) (by norm_num) (by norm_num) (by norm_num) (by norm_num)
    (by norm_num) (by norm_num [threshold])
  refine le_trans (fraction_mono fun x hx => ?_) (h.trans (by norm_num))
  rintro ⟨y, e1, e2⟩
  exact hx ⟨y, e1, e2.trans (by norm_num)⟩

/-! ## C47: accuracy of `HyperLogLogPF::count` -/

/-- **C47.** Insert `n` values with random hashes into a fresh `HyperLogLogPF` and call `count`.
For every `t` with `3/10 m + t ≤ μ = m (1 - 1/m)^n` the result is a number within `linErrF p n t` of
`n`, except with probability at most `m q^n (1 - q^n)/t²`. -/
theorem C47_pf_accuracy (hln : LnSpec ln) (hcfg : cfg.usizeBits = 64)
    (c : Serde.Codec (Fin n)) (h1 : 4 ≤ p) (h2 : p ≤ 16) {t : ℝ} (ht0 : 0 < t)
    (ht : 3 / 10 * 2 ^ p + t ≤ 2 ^ p * (1 - 1 / 2 ^ p) ^ n) :
    fraction (fun h : Fin n → Fin (2 ^ 64) => ¬ ∃ y : ℚ,
        later (PF.api cfg ln c) ords (insertAll p h) [.count 0] = .ok [.count (fin y)] ∧
        |(y : ℝ) - n| ≤ linErrF p n t) ≤
      2 ^ p * ((1 - 1 / 2 ^ p) ^ n * (1 - (1 - 1 / 2 ^ p) ^ n)) / t ^ 2 := by
  refine le_trans (fraction_mono fun h hh => ?_)
    (fraction_zeros (w := 32) (by omega) (by omega) (by omega) n ht0)
  by_contra hcon
  rw [not_le] at hcon
  have hs : Supported cfg c (insertAll p h) := supported64 hcfg c (by simp [insertAll])
  obtain ⟨y, e1, e2⟩ := pfCount_accurate hln h1 h2 ht0 ht hcon
  exact hh ⟨y, by rw [pf_count_val hs (contents_insertAll h1 h2 h), e1], e2⟩

/-- **C47**, a simple special case: with `n ≤ m/2` and `δ ≤ 1/3` the result of `count` differs from
`n` by more than `δ m + 1` with probability at most `16/(9 m δ²)`. -/
theorem C47_pf_simple (hln : LnSpec ln) (hcfg : cfg.usizeBits = 64)
    (c : Serde.Codec (Fin n)) (h1 : 4 ≤ p) (h2 : p ≤ 16) (hn : 2 * n ≤ 2 ^ p) {δ : ℝ}
    (hδ0 : 0 < δ) (hδ : δ ≤ 1 / 3) :
    fraction (fun h : Fin n → Fin (2 ^ 64) => ¬ ∃ y : ℚ,
        later (PF.api cfg ln c) ords (insertAll p h) [.count 0] = .ok [.count (fin y)] ∧
        |(y : ℝ) - n| ≤ δ * 2 ^ p + 1) ≤ 16 / (9 * 2 ^ p * δ ^ 2) := by
  obtain ⟨f1, f2, f3⟩ := half_facts h1 (by omega) hn hδ0 hδ
  refine le_trans (fraction_mono fun h hh => ?_) (le_trans (C47_pf_accuracy (ords := ords) hln hcfg c h1 h2
    (t := 3 / 8 * δ * 2 ^ p) (by positivity) f1) f3)
  rintro ⟨y, e1, e2⟩
  exact hh ⟨y, e1, e2.trans f2⟩

/-- An instance: `2^16` registers, 30000 values; the error is at most 1639 (5.5 %) with probability
at least 95 %. -/
example (hln : LnSpec ln) : fraction (fun h : Fin 30000 → Fin (2 ^ 64) => ¬ ∃ y : ℚ,
    later (PF.api Cfg.debug64 ln (noCodec (Fin 30000))) ords (insertAll 16 h) [.count 0] =
      .ok [.count (fin y)] ∧ |(y : ℝ) - (30000 : ℕ)| ≤ 1640) ≤ 0.05 := by
  have h := C47_pf_simple (ords := ords) (cfg := Cfg.debug64) (n := 30000) (p := 16) (δ := 0.025)
    hln rfl (noCodec (Fin 30000)) (by norm_num) (by norm_num) (by norm_num) (by norm_num)
    (by norm_num)
  refine le_trans (fraction_mono fun x hx => ?_) (h.trans (by norm_num))
  rintro ⟨y, e1, e2⟩
  exact hx ⟨y, e1, e2.trans (by norm_num)⟩

end HLL
