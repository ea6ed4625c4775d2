import Verif.Props.Worst
import Verif.Props.Monotone
import Verif.Proofs.Crowd
import Mathlib.Analysis.Convex.SpecificFunctions.Basic

/-!
# C72: how much `count` can drop when values are added

`C32_plus_refuted` and `C32_pf_refuted` show that `count` can get smaller when values are added.  These
theorems bound the drop for every history and every hash function, and show that the bounds have the
right order: a `HyperLogLogPlus` that has left the sparse representation loses at most a factor `4.4`;
a sparse one can lose a factor of order `2^p`; a `HyperLogLogPF` can lose a factor of order `p`.
-/

namespace HLL
open Spec F64

variable {I : Type} {cfg : Cfg} {ln : F64 → F64} {c : Serde.Codec I}
  {ords : Nat → IterOrder × IterOrder} {pre post : List (Op I)} {i : Nat}

theorem exp_neg_134 : Real.exp (-1.34) ≤ 0.29 := by
  have h1 : Real.exp (-1.34) = Real.exp (-1) * Real.exp (-0.34) := by rw [← Real.exp_add]; norm_num
  have h2 := Real.exp_neg_one_lt_d9
  have h3 : Real.exp (-0.34) ≤ 0.75 := by
    rw [Real.exp_neg]
    have := Real.add_one_le_exp (0.34 : ℝ)
    rw [inv_le_comm₀ (Real.exp_pos _) (by norm_num)]
    norm_num at this ⊢
    linarith
  rw [h1]
  have h0 := Real.exp_pos (-1)
  have h4 := Real.exp_pos (-0.34)
  nlinarith

/-- `L ≤ 1.89 (1 - e^-L)` as long as `L` is at most `1.34`. -/
theorem le_one_sub_exp {L : ℝ} (h0 : 0 ≤ L) (h1 : L ≤ 1.34) : L ≤ 1.89 * (1 - Real.exp (-L)) := by
  obtain ⟨_, hconv⟩ := convexOn_exp
  have hc := hconv (Set.mem_univ (0 : ℝ)) (Set.mem_univ (-1.34 : ℝ))
    (a := 1 - L / 1.34) (b := L / 1.34) (by rw [sub_nonneg, div_le_one (by norm_num)]; exact h1)
    (by positivity) (by ring)
  have e : (1 - L / 1.34) • (0 : ℝ) + (L / 1.34) • (-1.34) = -L := by
    simp only [smul_eq_mul]; field_simp; ring
  rw [e] at hc
  simp only [smul_eq_mul, Real.exp_zero, mul_one] at hc
  have h2 := mul_le_mul_of_nonneg_left exp_neg_134 (show (0 : ℝ) ≤ L / 1.34 by positivity)
  have h3 : Real.exp (-L) ≤ 1 - L / 1.34 + L / 1.34 * 0.29 := by linarith
  norm_num at h3 ⊢
  linarith

theorem threshold_ratio {p : Nat} (hp1 : 4 ≤ p) (hp2 : p ≤ 18) : (threshold p : ℚ) ≤ 1.3352 * 2 ^ p := by
  interval_cases p <;> norm_num [threshold]

/-- Linear counting up to the threshold is at most `1.9` times the number of occupied registers. -/
theorem linear_le_occupied {ln : F64 → F64} (hln : LnSpec ln) {p V : ℕ} (hp1 : 4 ≤ p) (hp2 : p ≤ 18)
    (h0 : V ≠ 0) (hV : V ≤ 2 ^ p) (ht : le (linear ln (2 ^ p) V) (num (threshold p)) = true) :
    ∃ y : ℚ, linear ln (2 ^ p) V = fin y ∧ y ≤ 1.9 * (2 ^ p - V) := by
  have h18 : 2 ^ p ≤ 2 ^ 18 := Nat.pow_le_pow_right (by norm_num) hp2
  obtain ⟨y, h1, h2, h3⟩ := linear_approx hln (Nat.pos_of_ne_zero h0) hV (by omega)
  refine ⟨y, h1, ?_⟩
  rw [h1, num, le_fin] at ht
  have hthr := ht.trans (threshold_ratio hp1 hp2)
  rcases hV.eq_or_lt with he | hlt
  · rw [h2 he, he]; push_cast; norm_num
  have hVr : (0 : ℝ) < V := by exact_mod_cast Nat.pos_of_ne_zero h0
  have hVm : (V : ℝ) + 1 ≤ ((2 ^ p : ℕ) : ℝ) := by exact_mod_cast hlt
  have hm18 : ((2 ^ p : ℕ) : ℝ) ≤ 2 ^ 18 := by exact_mod_cast h18
  have hthr' : (y : ℝ) ≤ 1.3352 * ((2 ^ p : ℕ) : ℝ) := by
    have := (Rat.cast_le (K := ℝ)).2 hthr
    push_cast at this ⊢
    exact this
  have goal : (y : ℝ) ≤ 1.9 * (((2 ^ p : ℕ) : ℝ) - V) := by
    generalize ((2 ^ p : ℕ) : ℝ) = m at *
    have hm : 0 < m := by linarith
    have hexp : Real.exp (-Real.log (m / V)) = V / m := by
      rw [Real.exp_neg, Real.exp_log (by positivity), inv_div]
    have hL0 : 0 ≤ Real.log (m / V) := Real.log_nonneg (by rw [le_div_iff₀ hVr]; linarith)
    generalize Real.log (m / V) = L at *
    obtain ⟨h4, h5⟩ := abs_le.1 h3
    have hL : L ≤ 1.34 := by
      by_contra hc
      push Not at hc
      have : m * 1.34 ≤ m * L := mul_le_mul_of_nonneg_left hc.le hm.le
      norm_num at *
      linarith
    have h6 := le_one_sub_exp hL0 hL
    rw [hexp] at h6
    have h7 : m * L ≤ 1.89 * (m - V) := by
      have := mul_le_mul_of_nonneg_left h6 hm.le
      have e : m * (1.89 * (1 - V / m)) = 1.89 * (m - V) := by field_simp
      linarith
    have h8 : (0 : ℝ) ≤ m * L := by positivity
    norm_num at *
    linarith
  have := goal
  have e : ((1.9 * (2 ^ p - V) : ℚ) : ℝ) = 1.9 * (((2 ^ p : ℕ) : ℝ) - V) := by push_cast; norm_num
  rw [← e] at this
  exact_mod_cast this

/-- **C72.** Once a `HyperLogLogPlus` has left the sparse representation, no further operations can
lower its count by more than a factor `4.4`, whatever the hashes are. -/
theorem C72_plus_dense_drop (hln : LnSpec ln) (h : Supported cfg c (pre ++ post)) {a : Abs I}
    (ha : (contents 64 18 pre)[i]? = some a) (hd : ¬ fitsSparse a.p a.S) :
    ∃ y y' : ℚ, later (Plus.api cfg ln c) ords pre [.count i] = .ok [.count (fin y)] ∧
      later (Plus.api cfg ln c) ords (pre ++ post) [.count i] = .ok [.count (fin y')] ∧
      y ≤ 4.4 * y' := by
  obtain ⟨hp1, hp2, hSa⟩ := contents_valid 64 18 pre a (mem_of_get ha)
  obtain ⟨b, hb, hp, _, hS⟩ := contentsFrom_mono 64 18 post _ ha
  have hb' : (contents 64 18 (pre ++ post))[i]? = some b := by rw [contents_append]; exact hb
  have hpre : Supported cfg c pre := h.of_subset (fun p b hp => by simp [hp]) (fun i hi => ⟨i, by simp [hi]⟩)
  obtain ⟨y', k1, k2, _, k4⟩ := C60_plus_bounds (ords := ords) hln h hb'
  have hne : a.S.Nonempty := by
    by_contra he
    rw [Finset.not_nonempty_iff_eq_empty] at he
    apply hd
    rw [he, fitsSparse, codes, Finset.image_empty, encSize, Finset.sort_empty]
    exact Nat.zero_le _
  have hy1 := k4 (hne.mono hS)
  have k1' := k1
  rw [plus_count_val h hb', hp] at k1'
  have hdb : ¬ fitsSparse a.p b.S := fun hf => hd (fitsSparse_mono hS hf)
  have hmono : ∀ hr : (plusRegime ln a.p a.S = plusRegime ln a.p b.S ∨
      (plusRegime ln a.p a.S = 1 ∧ plusRegime ln a.p b.S = 3)),
      ∃ y : ℚ, later (Plus.api cfg ln c) ords pre [.count i] = .ok [.count (fin y)] ∧ y ≤ 4.4 * y' := by
    intro hr
    obtain ⟨y, z, m1, m2, m3, _⟩ := plusCount_mono (v := cfg.search) hln hp1 hp2 hS hr
    rw [m2] at k1'
    have e : z = y' := by injection k1' with e; injection e with e; injection e with e; injection e
    subst e
    refine ⟨y, by rw [plus_count_val hpre ha, m1], ?_⟩
    norm_num at m3 ⊢
    linarith
  suffices hs : ∃ y : ℚ, later (Plus.api cfg ln c) ords pre [.count i] = .ok [.count (fin y)] ∧ y ≤ 4.4 * y' by
    obtain ⟨y, l1, l2⟩ := hs
    exact ⟨y, y', l1, k1, l2⟩
  have hreg := plusRegime_mono hln hp1 hp2 hS
  have hraw := regs_raw_mono (w := 64) hp1 hp2 (by omega) hS
  have hm16 : (16 : ℚ) ≤ 2 ^ a.p := by
    calc (16 : ℚ) = 2 ^ 4 := by norm_num
      _ ≤ 2 ^ a.p := pow_le_pow_right₀ (by norm_num) hp1
  rcases plusRegime_cases cfg.search ln hp1 hp2 a.S with ⟨_, a2, _⟩ | ⟨a1, a2, a3, a4, a5⟩ | ⟨a1, a2, ⟨a3, a4, a5⟩ | ⟨a3, a4, a5⟩⟩
  · exact absurd a2 hd
  · -- linear counting before
    obtain ⟨y, m1, m2⟩ := linear_le_occupied hln hp1 hp2 a3 (by rw [count_zero_regs]; exact zeros_le _ _ _) a4
    refine ⟨y, by rw [plus_count_val hpre ha, a5, m1], ?_⟩
    have hz := zeros_add_buckets (w := 64) (p := a.p) (by omega) hSa
    have hz' : (zeros 64 a.p a.S : ℚ) + (a.S.image (bucket 64 a.p)).card = 2 ^ a.p := by
      exact_mod_cast hz
    rw [count_zero_regs] at m2
    have hcard : ((a.S.image (bucket 64 a.p)).card : ℚ) ≤ (b.S.image (bucket 64 a.p)).card := by
      exact_mod_cast Finset.card_le_card (Finset.image_subset_image hS)
    rw [hp] at k2
    norm_num at m2 k2 ⊢
    linarith
  · -- corrected before
    rcases plusRegime_cases cfg.search ln hp1 hp2 b.S with ⟨_, b2, _⟩ | ⟨b1, _⟩ | ⟨b1, b2, ⟨b3, b4, b5⟩ | ⟨b3, b4, b5⟩⟩
    · exact absurd b2 hdb
    · omega
    · exact hmono (Or.inl (by rw [a3, b3]))
    · rw [b5] at k1'
      have e : rawQ a.p (hsum 0 (regs 64 a.p b.S)) = y' := by
        injection k1' with e; injection e with e; injection e with e; injection e
      have hM : Regs a.p (regs 64 a.p a.S) := regs_regs _ (by omega)
      obtain ⟨hr1, _⟩ := hM.raw_bounds hp1 hp2
      have hrr : rnd (rawQ a.p (hsum 0 (regs 64 a.p a.S))) = rawQ a.p (hsum 0 (regs 64 a.p a.S)) := rnd_rnd _
      obtain ⟨β, hc, h2, _⟩ := Plus.corrected_eq (v := cfg.search) hp1 hp2 hrr hr1 a4
      refine ⟨_, by rw [plus_count_val hpre ha, a5, h2], ?_⟩
      have hab := abs_le.1 (hc.abs_le hp1 hp2)
      have hx : rawQ a.p (hsum 0 (regs 64 a.p a.S)) - β ≤ 7 * 2 ^ a.p := by linarith [hab.1]
      have herr := abs_le.1 (rnd_err' (rawQ a.p (hsum 0 (regs 64 a.p a.S)) - β))
      have hge := hc.sub_ge hp1 hp2 hr1
      rw [e] at b4
      generalize rawQ a.p (hsum 0 (regs 64 a.p a.S)) - β = x at *
      rw [abs_of_nonneg (by linarith)] at herr
      have := herr.2
      norm_num at this ⊢
      linarith
  · rcases plusRegime_cases cfg.search ln hp1 hp2 b.S with ⟨_, b2, _⟩ | ⟨b1, _⟩ | ⟨b1, b2, ⟨b3, b4, b5⟩ | ⟨b3, b4, b5⟩⟩
    · exact absurd b2 hdb
    · omega
    · omega
    · exact hmono (Or.inl (by rw [a3, b3]))

/-- **C72.** Adding values, merging and any other operations lower the count of a `HyperLogLogPlus` of
precision `p` by at most a factor `0.82 · 2^p`, and by at most a factor `2.4 · (2^(25-p) + 39)`. -/
theorem C72_plus_drop (hln : LnSpec ln) (h : Supported cfg c (pre ++ post)) {a : Abs I}
    (ha : (contents 64 18 pre)[i]? = some a) :
    ∃ y y' : ℚ, later (Plus.api cfg ln c) ords pre [.count i] = .ok [.count (fin y)] ∧
      later (Plus.api cfg ln c) ords (pre ++ post) [.count i] = .ok [.count (fin y')] ∧
      y ≤ 0.82 * 2 ^ a.p * y' ∧ y ≤ 2.4 * (2 ^ (25 - a.p) + 39) * y' := by
  obtain ⟨hp1, hp2, hSa⟩ := contents_valid 64 18 pre a (mem_of_get ha)
  obtain ⟨b, hb, hp, _, hS⟩ := contentsFrom_mono 64 18 post _ ha
  have hb' : (contents 64 18 (pre ++ post))[i]? = some b := by rw [contents_append]; exact hb
  have hpre : Supported cfg c pre := h.of_subset (fun p b hp => by simp [hp]) (fun i hi => ⟨i, by simp [hi]⟩)
  have hm16 : (16 : ℚ) ≤ 2 ^ a.p := by
    calc (16 : ℚ) = 2 ^ 4 := by norm_num
      _ ≤ 2 ^ a.p := pow_le_pow_right₀ (by norm_num) hp1
  obtain ⟨z, k1, k2, _, k4⟩ := C60_plus_bounds (ords := ords) hln h hb'
  by_cases hf : fitsSparse a.p a.S
  · rcases a.S.eq_empty_or_nonempty with he | hne
    · have h0 : (codes a.p ∅).card = 0 := by simp [codes]
      refine ⟨0, z, ?_, k1, ?_⟩
      · rw [plus_count_val hpre ha, plusCount, if_pos hf, he, h0, Nat.sub_zero,
          linear_self hln (by norm_num) le_rfl]
      · have : (0 : ℚ) ≤ z := le_trans (by positivity) k2
        constructor <;> positivity
    · have hy1 := k4 (hne.mono hS)
      have hc : 0 < (codes a.p a.S).card := Finset.card_pos.2 (hne.image _)
      have hcard := (card_le_encSize (codes a.p a.S)).trans hf
      have hcap := capacity_le hp2
      obtain ⟨y, h1, _, h3, _⟩ := sparse_bounds hln hc (by omega)
      refine ⟨y, z, by rw [plus_count_val hpre ha, plusCount, if_pos hf, h1], k1, ?_⟩
      have hn1 : ((codes a.p a.S).card : ℚ) ≤ 0.8 * 2 ^ a.p := by
        have h5 : 5 * (codes a.p a.S).card ≤ 4 * 2 ^ a.p := by
          unfold capacity at hcard; omega
        have : (5 : ℚ) * (codes a.p a.S).card ≤ 4 * 2 ^ a.p := by exact_mod_cast h5
        norm_num; linarith
      have hn2 : ((codes a.p a.S).card : ℚ) ≤ 209715 := by exact_mod_cast hcard.trans hcap
      have hn0 : (0 : ℚ) ≤ (codes a.p a.S).card := by positivity
      have hn4 : ((codes a.p a.S).card : ℚ) ≤ (b.S.image (bucket 64 b.p)).card * (2 ^ (25 - a.p) + 39) := by
        have h5 := codes_le_buckets hp2 a.S
        have h6 : (a.S.image (bucket 64 a.p)).card ≤ (b.S.image (bucket 64 b.p)).card := by
          rw [hp]; exact Finset.card_le_card (Finset.image_subset_image hS)
        exact_mod_cast h5.trans (Nat.mul_le_mul_right _ h6)
      have hQ : (0 : ℚ) ≤ 2 ^ (25 - a.p) + 39 := by positivity
      generalize ((b.S.image (bucket 64 b.p)).card : ℚ) = k at *
      generalize ((codes a.p a.S).card : ℚ) = n at *
      generalize (2 : ℚ) ^ (25 - a.p) + 39 = Q at *
      generalize (2 : ℚ) ^ a.p = m at *
      have hn3 : n * 2 ^ 24 / (2 ^ 24 - n) ≤ 1.02 * n := by
        rw [div_le_iff₀ (by norm_num; linarith)]
        norm_num
        nlinarith
      have hm : 0.82 * m * 1 ≤ 0.82 * m * z := mul_le_mul_of_nonneg_left hy1 (by norm_num; linarith)
      have hk := mul_le_mul_of_nonneg_right k2 hQ
      have hz : 0 ≤ z * Q := mul_nonneg (by linarith) hQ
      norm_num at hn1 hn3 hm h3 hk ⊢
      constructor <;> linarith
  · obtain ⟨y, y', l1, l2, l3⟩ := C72_plus_dense_drop (ords := ords) hln h ha hf
    refine ⟨y, y', l1, l2, ?_⟩
    rw [k1] at l2
    have e : z = y' := by injection l2 with e; injection e with e; injection e with e; injection e
    have h0 : (0 : ℚ) ≤ y' := e ▸ le_trans (by positivity) k2
    have hm : 0.82 * 16 * y' ≤ 0.82 * 2 ^ a.p * y' :=
      mul_le_mul_of_nonneg_right (by norm_num; linarith) h0
    have hQ : 2.4 * 39 * y' ≤ 2.4 * (2 ^ (25 - a.p) + 39) * y' := by
      refine mul_le_mul_of_nonneg_right (mul_le_mul_of_nonneg_left ?_ (by norm_num)) h0
      have : (0 : ℚ) ≤ 2 ^ (25 - a.p) := by positivity
      linarith
    norm_num at l3 hm hQ ⊢
    constructor <;> linarith

/-- **C72.** As long as the raw estimate stays below `2^32` (beyond, see C27), adding values, merging
and any other operations lower the count of a `HyperLogLogPF` of precision `p` by at most a factor
`0.52 · p`. -/
theorem C72_pf_drop (hln : LnSpec ln) (h : Supported cfg c (pre ++ post)) {a b : Abs I}
    (ha : (contents 32 16 pre)[i]? = some a) (hb : (contents 32 16 (pre ++ post))[i]? = some b) {raw : ℚ}
    (h1 : rawEstimate b.p (regs 32 b.p b.S) = fin raw) (h2 : raw < 2 ^ 32) :
    ∃ y y' : ℚ, later (PF.api cfg ln c) ords pre [.count i] = .ok [.count (fin y)] ∧
      later (PF.api cfg ln c) ords (pre ++ post) [.count i] = .ok [.count (fin y')] ∧
      y ≤ 0.52 * a.p * y' := by
  obtain ⟨hp1, hp2, hSa⟩ := contents_valid 32 16 pre a (mem_of_get ha)
  obtain ⟨b', hb', hp, _, hS⟩ := contentsFrom_mono 32 16 post _ ha
  rw [← contents_append, hb] at hb'
  cases hb'
  have hpre : Supported cfg c pre := h.of_subset (fun p b hp => by simp [hp]) (fun i hi => ⟨i, by simp [hi]⟩)
  have hM : Regs a.p (regs 32 a.p b.S) := regs_regs _ (by omega)
  rw [hp, hM.raw_eq hp1 (by omega)] at h1
  cases h1
  have hp4 : (4 : ℚ) ≤ a.p := by exact_mod_cast hp1
  by_cases hr : pfRegime a.p a.S = 1 ∧ pfRegime a.p b.S = 2
  · rcases pfRegime_cases ln hp1 hp2 a.S with ⟨_, a2, a3, a4⟩ | ⟨_, ⟨a2, _⟩ | ⟨a2, _⟩⟩
    rotate_left
    · omega
    · omega
    rcases pfRegime_cases ln hp1 hp2 b.S with ⟨b1, _⟩ | ⟨b1, ⟨b2, _, b3⟩ | ⟨b2, _⟩⟩
    · omega
    rotate_left
    · omega
    have h16 : 2 ^ a.p ≤ 2 ^ 16 := Nat.pow_le_pow_right (by norm_num) hp2
    have hVle : (regs 32 a.p a.S).count 0 ≤ 2 ^ a.p := by rw [count_zero_regs]; exact zeros_le _ _ _
    obtain ⟨y, l1, _, l3⟩ := linear_approx hln (Nat.pos_of_ne_zero a3) hVle (by omega)
    refine ⟨y, _, by rw [pf_count_val hpre ha, a4, l1], by rw [pf_count_val h hb, hp, b3], ?_⟩
    have hm0 : (0 : ℝ) < ((2 ^ a.p : ℕ) : ℝ) := by positivity
    have hVr : (1 : ℝ) ≤ ((regs 32 a.p a.S).count 0 : ℝ) := by exact_mod_cast Nat.pos_of_ne_zero a3
    have hlog : Real.log (((2 ^ a.p : ℕ) : ℝ) / ((regs 32 a.p a.S).count 0 : ℝ)) ≤ a.p * Real.log 2 := by
      rw [← Real.log_pow]
      apply Real.log_le_log (by positivity)
      push_cast
      exact div_le_self (by positivity) hVr
    have hy : (y : ℝ) ≤ 0.69315 * a.p * ((2 ^ a.p : ℕ) : ℝ) := by
      have hl := Real.log_two_lt_d9
      have h4 := (abs_le.1 l3).2
      have h5 : Real.log (((2 ^ a.p : ℕ) : ℝ) / ((regs 32 a.p a.S).count 0 : ℝ)) ≤ a.p * 0.6931471808 :=
        hlog.trans (mul_le_mul_of_nonneg_left hl.le (by positivity))
      have hp4' : (4 : ℝ) ≤ a.p := by exact_mod_cast hp1
      generalize Real.log (((2 ^ a.p : ℕ) : ℝ) / ((regs 32 a.p a.S).count 0 : ℝ)) = L at *
      generalize ((2 ^ a.p : ℕ) : ℝ) = m at *
      have h6 := mul_le_mul_of_nonneg_left h5 hm0.le
      have h7 := mul_le_mul_of_nonneg_left hp4' hm0.le
      norm_num at h4 h6 ⊢
      linarith
    have hy' : y ≤ 0.69315 * a.p * 2 ^ a.p := by
      have e : ((0.69315 * a.p * 2 ^ a.p : ℚ) : ℝ) = 0.69315 * a.p * ((2 ^ a.p : ℕ) : ℝ) := by
        push_cast; norm_num
      rw [← e] at hy
      exact_mod_cast hy
    have hm : (0 : ℚ) < 2 ^ a.p := by positivity
    have hraw : 1.3399 * 2 ^ a.p ≤ rawQ a.p (hsum 0 (regs 32 a.p b.S)) := by
      by_cases hz : (regs 32 a.p b.S).count 0 = 0
      · have hg := raw_ge_zeros hp1 (by omega) hM
        obtain ⟨_, ha1, _⟩ := alpha_facts hp1 (show a.p ≤ 18 by omega)
        rw [hz, Nat.cast_zero, add_zero] at hg
        have hg' : 2 * alphaQ a.p * 2 ^ a.p * (1 - 1 / 2 ^ 51) ≤ rawQ a.p (hsum 0 (regs 32 a.p b.S)) := by
          refine le_of_mul_le_mul_right (le_of_eq_of_le ?_ hg) hm
          ring
        have := mul_le_mul_of_nonneg_right ha1 hm.le
        generalize (2 : ℚ) ^ a.p = m at *
        rw [show 2 * alphaQ a.p * m * (1 - 1 / 2 ^ 51) = 2 * (alphaQ a.p * m) * (1 - 1 / 2 ^ 51) by ring] at hg'
        generalize alphaQ a.p * m = t at *
        norm_num at hg' ⊢
        linarith
      · have : 5 / 2 * 2 ^ a.p < rawQ a.p (hsum 0 (regs 32 a.p b.S)) := by
          by_contra hc
          exact b1 ⟨not_lt.1 hc, hz⟩
        norm_num at this ⊢
        linarith
    have := mul_le_mul_of_nonneg_left hraw (show (0 : ℚ) ≤ 0.52 * a.p by positivity)
    refine hy'.trans (le_trans ?_ this)
    have h9 : (0 : ℚ) ≤ a.p * 2 ^ a.p := by positivity
    norm_num
    linarith
  · obtain ⟨y, y', k1, k2, k3, _⟩ := pfCount_mono hln hp1 hp2 hS h2 hr
    refine ⟨y, y', by rw [pf_count_val hpre ha, k1], by rw [pf_count_val h hb, hp, k2], ?_⟩
    obtain ⟨z, m1, m2, _⟩ := pfDense_bounds hln hp1 hp2 h2
    rw [k2] at m1
    have e : y' = z := by injection m1
    have hz : (0 : ℚ) ≤ y' := by
      have : (zeros 32 a.p b.S : ℚ) ≤ 2 ^ a.p := by exact_mod_cast zeros_le 32 a.p b.S
      rw [e]; linarith
    have := mul_le_mul_of_nonneg_right hp4 hz
    norm_num at k3 this ⊢
    linarith

/-! ## The bounds have the right order -/

/-- **C72, the bound for `HyperLogLogPlus` cannot be improved** except for the constant: at every
precision there are a history and one more value that lowers the count by a factor of at least
`0.7 · min(2^p, 2^(25-p))`. -/
theorem C72_plus_sharp (hln : LnSpec ln) (hcfg : cfg.usizeBits = 64) {p : Nat} (hp1 : 4 ≤ p) (hp2 : p ≤ 18) :
    ∃ (pre : List (Op Nat)) (v : Nat), Supported cfg (noCodec Nat) (pre ++ [.insert .insert 0 v]) ∧
      (∃ a, (contents 64 18 pre)[0]? = some a ∧ a.p = p) ∧ ∃ y y' : ℚ,
      later (Plus.api cfg ln (noCodec Nat)) ords pre [.count 0] = .ok [.count (fin y)] ∧
      later (Plus.api cfg ln (noCodec Nat)) ords (pre ++ [.insert .insert 0 v]) [.count 0] =
        .ok [.count (fin y')] ∧
      0 < y' ∧ 0.7 * min (2 ^ p) (2 ^ (25 - p)) * y' ≤ y := by
  have hsup : ∀ n, Supported cfg (noCodec Nat) (feed p (crowd p) n) := fun n =>
    supported64 hcfg _ (by simp [feed])
  have hlt : ∀ n ≤ capacity p + 1, ∀ v < n, crowd p v < 2 ^ 64 := by
    intro n hn v hv
    have hcap := capacity_le hp2
    have h1 : v / (2 ^ (25 - p) - 1) ≤ v := Nat.div_le_self _ _
    have h2 : dodge p v < 2 ^ 25 := by
      norm_num [dodge]; omega
    rw [crowd]
    calc dodge p v * 2 ^ 39 < 2 ^ 25 * 2 ^ 39 := Nat.mul_lt_mul_of_pos_right h2 (Nat.two_pow_pos 39)
      _ = 2 ^ 64 := by norm_num
  have ha := contents_feed (w := 64) (maxP := 18) le_rfl hp1 hp2 (hlt _ (Nat.le_succ _))
  have hb := contents_feed (w := 64) (maxP := 18) le_rfl hp1 hp2 (hlt _ le_rfl)
  have hcap0 : 12 ≤ capacity p := by
    have : 2 ^ 4 ≤ 2 ^ p := Nat.pow_le_pow_right (by norm_num) hp1
    unfold capacity; omega
  have hcap := capacity_le hp2
  have hfit : fitsSparse p ((Finset.range (capacity p)).image (crowd p)) := by
    rw [fitsSparse, encSize_crowd hp2]
  have hnfit : ¬ fitsSparse p ((Finset.range (capacity p + 1)).image (crowd p)) := by
    rw [fitsSparse, encSize_crowd hp2]; omega
  refine ⟨feed p (crowd p) (capacity p), capacity p, ?_, ⟨_, ha, rfl⟩, ?_⟩
  · rw [← feed_succ]; exact hsup _
  rw [← feed_succ, plus_count_val (hsup _) ha, plus_count_val (hsup _) hb]
  simp only
  -- before: the number of codes
  obtain ⟨y, h1, h2, _⟩ := sparse_bounds hln (n := capacity p) (by omega) (by omega)
  rw [plusCount, if_pos hfit, card_codes_crowd hp2, h1]
  -- after: linear counting
  have hS : ∀ h ∈ (Finset.range (capacity p + 1)).image (crowd p), h < 2 ^ 64 := by
    intro h hh
    obtain ⟨v, hv, rfl⟩ := Finset.mem_image.1 hh
    exact hlt _ le_rfl v (Finset.mem_range.1 hv)
  have hz := zeros_add_buckets (w := 64) (p := p) (by omega) hS
  have hk := buckets_crowd hp2 (capacity p)
  have hk0 : 1 ≤ (((Finset.range (capacity p + 1)).image (crowd p)).image (bucket 64 p)).card :=
    Finset.card_pos.2 (((Finset.nonempty_range_iff.2 (by omega)).image _).image _)
  rw [plusCount, if_neg hnfit, plusDense, count_zero_regs]
  generalize zeros 64 p ((Finset.range (capacity p + 1)).image (crowd p)) = V at *
  generalize (((Finset.range (capacity p + 1)).image (crowd p)).image (bucket 64 p)).card = k at *
  have key : ∀ m K T : ℕ, m ≤ 2 ^ 18 → V + k = m → k ≤ K → 100 * K ≤ 7 * m → 108 * K ≤ 100 * T →
      ∃ y' : ℚ, linear ln m V = fin y' ∧ V ≠ 0 ∧ y' ≤ T ∧ 0 < y' ∧ y' * (m - K) ≤ 1.0001 * m * K := by
    intro m K T hm hVk hkK hKm hT
    have hT : 108 * (K : ℝ) ≤ 100 * T := by exact_mod_cast hT
    have hV0 : 0 < V := by omega
    obtain ⟨y', l1, _, l3⟩ := linear_approx hln hV0 (show V ≤ m by omega) (by omega)
    obtain ⟨y2, l4, l5⟩ := linear_ge hln hV0 (show V ≤ m by omega) hm
    rw [l1] at l4
    cases l4
    have hVr : (0 : ℝ) < V := by exact_mod_cast hV0
    have hm18 : (m : ℝ) ≤ 2 ^ 18 := by exact_mod_cast hm
    have hVk' : (V : ℝ) + k = m := by exact_mod_cast hVk
    have hkK' : (k : ℝ) ≤ K := by exact_mod_cast hkK
    have hK1 : (1 : ℝ) ≤ K := by exact_mod_cast hk0.trans hkK
    have hKm' : 100 * (K : ℝ) ≤ 7 * m := by exact_mod_cast hKm
    have hlog : Real.log (m / V) ≤ K / (m - K) := by
      have h0 : (0 : ℝ) < m := by linarith
      have := Real.log_le_sub_one_of_pos (x := (m : ℝ) / V) (by positivity)
      refine this.trans ?_
      have e : (m : ℝ) / V - 1 = (m - V) / V := by field_simp
      rw [e]
      apply div_le_div₀ <;> linarith
    obtain ⟨_, l6⟩ := abs_le.1 l3
    have hKm0 : (0 : ℝ) < m - K := by linarith
    have hx : (K : ℝ) / (m - K) * (m - K) = K := by field_simp
    have hle : (K : ℝ) / (m - K) ≤ 1.076 * K / m := by
      rw [div_le_div_iff₀ hKm0 (by linarith)]
      norm_num
      nlinarith
    have hm0 : (0 : ℝ) < m := by linarith
    have h7 : (m : ℝ) * Real.log (m / V) ≤ m * (K / (m - K)) := mul_le_mul_of_nonneg_left hlog hm0.le
    have h8 : (m : ℝ) * (K / (m - K)) ≤ 1.076 * K := by
      have := mul_le_mul_of_nonneg_left hle hm0.le
      have e : (m : ℝ) * (1.076 * K / m) = 1.076 * K := by field_simp
      linarith
    have h9 : (1 : ℝ) ≤ m * (K / (m - K)) := by
      rw [← mul_div_assoc, le_div_iff₀ hKm0]
      nlinarith
    have hy1 : (y' : ℝ) ≤ 1.0001 * (m * (K / (m - K))) := by
      norm_num at l6 ⊢
      linarith
    refine ⟨y', l1, by omega, ?_, ?_, ?_⟩
    · have : (y' : ℝ) ≤ T := by norm_num at hy1 h8; linarith
      exact_mod_cast this
    · have : (1 : ℚ) ≤ m - V := by
        have h : (V : ℚ) + k = m := by exact_mod_cast hVk
        have : (1 : ℚ) ≤ k := by exact_mod_cast hk0
        linarith
      linarith
    · have h10 : (y' : ℝ) * (m - K) ≤ 1.0001 * m * K := by
        have := mul_le_mul_of_nonneg_right hy1 hKm0.le
        have e : 1.0001 * (m * ((K : ℝ) / (m - K))) * (m - K) = 1.0001 * m * K := by field_simp
        linarith
      have e : ((y' * (m - K) : ℚ) : ℝ) ≤ ((1.0001 * m * K : ℚ) : ℝ) := by push_cast; norm_num at h10 ⊢; exact h10
      exact_mod_cast e
  have hm18 : 2 ^ p ≤ 2 ^ 18 := Nat.pow_le_pow_right (by norm_num) hp2
  have hnum : 100 * (capacity p / (2 ^ (25 - p) - 1) + 1) ≤ 7 * 2 ^ p ∧
      108 * (capacity p / (2 ^ (25 - p) - 1) + 1) ≤ 100 * threshold p ∧
      (0.7 : ℚ) * min (2 ^ p) (2 ^ (25 - p)) * (1.0001 * 2 ^ p * (capacity p / (2 ^ (25 - p) - 1) + 1 : ℕ)) ≤
        capacity p * (2 ^ p - (capacity p / (2 ^ (25 - p) - 1) + 1 : ℕ)) := by
    clear * - hp1 hp2
    interval_cases p <;> norm_num [capacity, threshold]
  obtain ⟨n1, n2, n3⟩ := hnum
  obtain ⟨y', l1, l2, l3, l4, l5⟩ := key (2 ^ p) _ (threshold p) hm18 hz hk n1 n2
  have hc : V ≠ 0 ∧ le (linear ln (2 ^ p) V) (num (threshold p)) = true := by
    refine ⟨l2, ?_⟩
    rw [l1, num, le_fin]; exact l3
  rw [if_pos hc, l1]
  refine ⟨y, y', rfl, rfl, l4, ?_⟩
  have n1' : (100 : ℚ) * (capacity p / (2 ^ (25 - p) - 1) + 1 : ℕ) ≤ 7 * 2 ^ p := by exact_mod_cast n1
  have hm0 : (0 : ℚ) < 2 ^ p := by positivity
  have hM : (0 : ℚ) ≤ 0.7 * min (2 ^ p) (2 ^ (25 - p)) := by positivity
  rw [Nat.cast_pow, Nat.cast_ofNat] at l5
  have h3 := mul_le_mul_of_nonneg_left l5 hM
  generalize ((capacity p / (2 ^ (25 - p) - 1) + 1 : ℕ) : ℚ) = K at *
  generalize (0.7 : ℚ) * min (2 ^ p) (2 ^ (25 - p)) = M at *
  generalize (2 : ℚ) ^ p = m at *
  have hd : 0 < m - K := by linarith
  have h4 : M * y' * (m - K) ≤ capacity p * (m - K) := by linarith
  exact (le_of_mul_le_mul_right h4 hd).trans h2

theorem raw_full_le {p : Nat} (hp1 : 4 ≤ p) (hp2 : p ≤ 16) :
    rawQ p (hsum 0 (List.replicate (2 ^ p) 1)) ≤ 187 / 128 * 2 ^ p := by
  have h16 : 2 ^ p ≤ 2 ^ 16 := Nat.pow_le_pow_right (by norm_num) hp2
  have hh := hsum_replicate (k := 1) (by norm_num) (2 ^ p) 0 (by omega)
  simp only [Nat.cast_zero, zero_mul, zero_add] at hh
  rw [hh, rawQ]
  have e : rnd (187 / 128 * (2 : ℚ) ^ p) = 187 / 128 * 2 ^ p := by
    have h := rnd_of_int_mul (K := ℚ) (m := 187) (e := (p : ℕ) - 7) (by norm_num) (by omega)
    have e2 : ((187 : ℤ) : ℚ) * 2 ^ ((p : ℤ) - 7) = 187 / 128 * 2 ^ p := by
      rw [zpow_sub₀ (by norm_num), zpow_natCast]
      norm_num
      ring
    rw [← e2]
    exact_mod_cast h
  apply rnd_le_of_le e
  rw [Rat.cast_id, div_le_iff₀ (by positivity)]
  refine (rawNum_le hp1 (by omega)).trans (le_of_eq ?_)
  push_cast
  ring

/-- **C72, the bound for `HyperLogLogPF` cannot be improved** except for the constant: at every precision
there are a history and one more value that lowers the count by a factor of at least `0.47 · p`. -/
theorem C72_pf_sharp (hln : LnSpec ln) (hcfg : cfg.usizeBits = 64) {p : Nat} (hp1 : 4 ≤ p) (hp2 : p ≤ 16) :
    ∃ (pre : List (Op Nat)) (v : Nat), Supported cfg (noCodec Nat) (pre ++ [.insert .insert 0 v]) ∧
      (∃ a, (contents 32 16 pre)[0]? = some a ∧ a.p = p) ∧ ∃ y y' : ℚ,
      later (PF.api cfg ln (noCodec Nat)) ords pre [.count 0] = .ok [.count (fin y)] ∧
      later (PF.api cfg ln (noCodec Nat)) ords (pre ++ [.insert .insert 0 v]) [.count 0] =
        .ok [.count (fin y')] ∧
      0 < y' ∧ 0.47 * p * y' ≤ y := by
  have hsup : ∀ n, Supported cfg (noCodec Nat) (feed p (spread 32 p) n) := fun n =>
    supported64 hcfg _ (by simp [feed])
  have h16 : 2 ^ p ≤ 2 ^ 16 := Nat.pow_le_pow_right (by norm_num) hp2
  have hpos : 1 ≤ 2 ^ p := Nat.one_le_two_pow
  have hlt : ∀ n ≤ 2 ^ p, ∀ v < n, spread 32 p v < 2 ^ 32 := fun n hn v hv =>
    spread_lt (by omega) (by omega)
  have ha := contents_feed (w := 32) (maxP := 16) (by norm_num) hp1 hp2 (hlt (2 ^ p - 1) (by omega))
  have hb := contents_feed (w := 32) (maxP := 16) (by norm_num) hp1 hp2 (hlt (2 ^ p) le_rfl)
  have hra := regs_spread (w := 32) (p := p) (n := 2 ^ p - 1) (by omega) (by omega)
  have hrb := regs_spread (w := 32) (p := p) (n := 2 ^ p) (by omega) le_rfl
  have hca : (regs 32 p ((Finset.range (2 ^ p - 1)).image (spread 32 p))).count 0 = 1 := by
    rw [hra, List.count_append, List.count_replicate_self, List.count_eq_zero_of_not_mem]
    · omega
    · intro h; exact absurd (List.eq_of_mem_replicate h) (by norm_num)
  rw [Nat.sub_self, List.replicate_zero, List.append_nil] at hrb
  have hcb : (regs 32 p ((Finset.range (2 ^ p)).image (spread 32 p))).count 0 = 0 := by
    rw [hrb, List.count_eq_zero_of_not_mem]
    intro h; exact absurd (List.eq_of_mem_replicate h) (by norm_num)
  have hraw := raw_full_le hp1 hp2
  rw [← hrb] at hraw
  have hmono := regs_raw_mono (w := 32) hp1 (by omega) (by omega)
    (Finset.image_subset_image (f := spread 32 p) (Finset.range_subset_range.2 (Nat.sub_le (2 ^ p) 1)))
  have hm0 : (0 : ℚ) < 2 ^ p := by positivity
  have hm16 : (2 : ℚ) ^ p ≤ 2 ^ 16 := by exact_mod_cast h16
  refine ⟨feed p (spread 32 p) (2 ^ p - 1), 2 ^ p - 1, ?_, ⟨_, ha, rfl⟩, ?_⟩
  · rw [← feed_succ]; exact hsup _
  rw [← feed_succ, Nat.sub_add_cancel hpos, pf_count_val (hsup _) ha, pf_count_val (hsup _) hb]
  simp only
  -- before: linear counting with one empty register
  have e1 : pfCount ln p ((Finset.range (2 ^ p - 1)).image (spread 32 p)) = linear ln (2 ^ p) 1 := by
    rcases pfRegime_cases ln hp1 hp2 ((Finset.range (2 ^ p - 1)).image (spread 32 p)) with ⟨_, _, _, a4⟩ | ⟨a1, _⟩
    · rw [a4, hca]
    · exact absurd ⟨by norm_num; linarith, by rw [hca]; norm_num⟩ a1
  obtain ⟨y, l1, _, l3⟩ := linear_approx hln (m := 2 ^ p) (V := 1) (by norm_num) hpos (by omega)
  -- after: the raw estimate
  obtain ⟨t, ht, ht1, ht2⟩ := pf_large
  have e2 : pfCount ln p ((Finset.range (2 ^ p)).image (spread 32 p)) =
      fin (rawQ p (hsum 0 (regs 32 p ((Finset.range (2 ^ p)).image (spread 32 p))))) := by
    rcases pfRegime_cases ln hp1 hp2 ((Finset.range (2 ^ p)).image (spread 32 p)) with
      ⟨_, _, a3, _⟩ | ⟨_, ⟨_, _, b3⟩ | ⟨_, b2, _⟩⟩
    · exact absurd hcb a3
    · exact b3
    · rw [ht, gt_fin] at b2
      norm_num at ht1
      linarith
  have hM : Regs p (regs 32 p ((Finset.range (2 ^ p)).image (spread 32 p))) := regs_regs _ (by omega)
  obtain ⟨hr1, _⟩ := hM.raw_bounds hp1 (by omega)
  obtain ⟨_, ha1, _⟩ := alpha_facts hp1 (show p ≤ 18 by omega)
  refine ⟨y, _, by rw [e1, l1], by rw [e2], ?_, ?_⟩
  · have := mul_le_mul_of_nonneg_right ha1 hm0.le
    have hm1 : (1 : ℚ) ≤ 2 ^ p := by exact_mod_cast hpos
    norm_num at hr1
    linarith
  · have hl := Real.log_two_gt_d9
    have hlog : Real.log (((2 ^ p : ℕ) : ℝ) / ((1 : ℕ) : ℝ)) = p * Real.log 2 := by
      push_cast; rw [div_one, Real.log_pow]
    rw [hlog] at l3
    have hy : 0.69 * p * (2 : ℝ) ^ p ≤ y := by
      have h4 := (abs_le.1 l3).1
      have hp4 : (4 : ℝ) ≤ p := by exact_mod_cast hp1
      push_cast at h4
      have hmr : (0 : ℝ) < 2 ^ p := by positivity
      generalize (2 : ℝ) ^ p = m at *
      have h5 : (p : ℝ) * m * 0.6931 ≤ p * m * Real.log 2 :=
        mul_le_mul_of_nonneg_left (by linarith) (by positivity)
      have h6 := mul_le_mul_of_nonneg_right hp4 hmr.le
      have e : m * (↑p * Real.log 2) = p * m * Real.log 2 := by ring
      rw [e] at h4
      norm_num at h4 h5 ⊢
      linarith
    have hy' : 0.69 * p * 2 ^ p ≤ y := by
      have e : ((0.69 * p * 2 ^ p : ℚ) : ℝ) = 0.69 * p * (2 : ℝ) ^ p := by push_cast; norm_num
      rw [← e] at hy
      exact_mod_cast hy
    refine le_trans ?_ hy'
    have := mul_le_mul_of_nonneg_left hraw (show (0 : ℚ) ≤ 0.47 * p by positivity)
    refine this.trans ?_
    have h9 : (0 : ℚ) ≤ p * 2 ^ p := by positivity
    norm_num
    linarith

/-- **C72, a dense `HyperLogLogPlus` can lose more than a factor `1.7`** (at precision 18, when linear
counting is left). -/
theorem C72_plus_dense_sharp (hln : LnSpec ln) (hcfg : cfg.usizeBits = 64) :
    ∃ (pre post : List (Op Nat)), Supported cfg (noCodec Nat) (pre ++ post) ∧
      (∃ a, (contents 64 18 pre)[0]? = some a ∧ ¬ fitsSparse a.p a.S) ∧ ∃ y y' : ℚ,
      later (Plus.api cfg ln (noCodec Nat)) ords pre [.count 0] = .ok [.count (fin y)] ∧
      later (Plus.api cfg ln (noCodec Nat)) ords (pre ++ post) [.count 0] = .ok [.count (fin y')] ∧
      0 < y' ∧ 1.7 * y' ≤ y := by
  have hsup : ∀ n, Supported cfg (noCodec Nat) (feed 18 (spread 64 18) n) := fun n =>
    supported64 hcfg _ (by simp [feed])
  have hlt : ∀ n ≤ 2 ^ 18, ∀ v < n, spread 64 18 v < 2 ^ 64 := fun n hn v hv =>
    spread_lt (by omega) (by omega)
  have ha := contents_feed (w := 64) (maxP := 18) le_rfl (p := 18) (by omega) le_rfl (hlt 192512 (by norm_num))
  have hb := contents_feed (w := 64) (maxP := 18) le_rfl (p := 18) (by omega) le_rfl (hlt 196608 (by norm_num))
  have happ : feed 18 (spread 64 18) 196608 = feed 18 (spread 64 18) 192512 ++
      (List.range' 192512 4096).map (.insert .insert 0) := by
    have e : List.range 196608 = List.range 192512 ++ List.range' 192512 4096 := by
      rw [List.range_eq_range', List.range_eq_range', List.range'_append_1]
    rw [feed, feed, e, List.map_append, List.cons_append]
  have hra := regs_spread (w := 64) (p := 18) (n := 192512) (by omega) (by norm_num)
  have hrb := regs_spread (w := 64) (p := 18) (n := 196608) (by omega) (by norm_num)
  have hcount : ∀ n k : ℕ, (List.replicate n 1 ++ List.replicate k 0).count 0 = k := by
    intro n k
    rw [List.count_append, List.count_replicate_self, List.count_eq_zero_of_not_mem, Nat.zero_add]
    intro h; exact absurd (List.eq_of_mem_replicate h) (by norm_num)
  have hfat : ¬ fitsSparse 18 ((Finset.range 192512).image (spread 64 18)) := by
    rw [fitsSparse, codes_spread le_rfl]
    have h1 := encSize_fast (f := fun v => v * 2 ^ (26 - 18) + 2 ^ (25 - 18)) (fun j => by omega) 192511
    rw [show 192511 + 1 = 192512 from rfl] at h1
    have h2 := capacity_le (p := 18) le_rfl
    omega
  have hfat' : ¬ fitsSparse 18 ((Finset.range 196608).image (spread 64 18)) := fun h =>
    hfat (fitsSparse_mono (Finset.image_subset_image (Finset.range_subset_range.2 (by norm_num))) h)
  refine ⟨feed 18 (spread 64 18) 192512, _, by rw [← happ]; exact hsup _, ⟨_, ha, hfat⟩, ?_⟩
  rw [← happ, plus_count_val (hsup _) ha, plus_count_val (hsup _) hb]
  dsimp only
  have hl2 := Real.log_two_gt_d9
  have hl3 := Real.log_two_lt_d9
  -- before
  obtain ⟨y, l1, _, l3⟩ := linear_approx hln (m := 2 ^ 18) (V := 69632) (by norm_num) (by norm_num) (by norm_num)
  have hlog : Real.log (((2 ^ 18 : ℕ) : ℝ) / ((69632 : ℕ) : ℝ)) = 2 * Real.log 2 - Real.log (17 / 16) := by
    rw [show ((2 ^ 18 : ℕ) : ℝ) / ((69632 : ℕ) : ℝ) = 2 ^ 2 / (17 / 16) by norm_num,
      Real.log_div (by norm_num) (by norm_num), Real.log_pow]
    norm_num
  have hlo := Real.one_sub_inv_le_log_of_pos (x := 17 / 16) (by norm_num)
  have hhi := Real.log_le_sub_one_of_pos (x := 17 / 16) (by norm_num)
  rw [hlog] at l3
  generalize Real.log (17 / 16) = L at *
  have hy : (346000 : ℝ) ≤ y ∧ (y : ℝ) ≤ 350000 := by
    obtain ⟨h4, h5⟩ := abs_le.1 l3
    norm_num at h4 h5 hlo hhi
    constructor <;> linarith
  have hy1 : (346000 : ℚ) ≤ y := by exact_mod_cast hy.1
  have hy2 : y ≤ 350000 := by exact_mod_cast hy.2
  -- after
  obtain ⟨z, m1, _, m3⟩ := linear_approx hln (m := 2 ^ 18) (V := 65536) (by norm_num) (by norm_num) (by norm_num)
  have hlog' : Real.log (((2 ^ 18 : ℕ) : ℝ) / ((65536 : ℕ) : ℝ)) = 2 * Real.log 2 := by
    rw [show ((2 ^ 18 : ℕ) : ℝ) / ((65536 : ℕ) : ℝ) = 2 ^ 2 by norm_num, Real.log_pow]
    norm_num
  rw [hlog'] at m3
  have hz : (350000 : ℝ) < z := by
    have h4 := (abs_le.1 m3).1
    norm_num at h4
    linarith
  have hz' : 350000 < z := by exact_mod_cast hz
  have hh : hsum 0 (List.replicate 196608 1 ++ List.replicate 65536 0) = 163840 := by
    have happ : ∀ (l : List ℕ) (l' : List ℕ) (x : ℚ), hsum x (l ++ l') = hsum (hsum x l) l' := by
      intro l
      induction l with
      | nil => intro l' x; rfl
      | cons r l ih => intro l' x; rw [List.cons_append, hsum, hsum, ih]
    have h1 := hsum_replicate (k := 1) (by norm_num) 196608 0 (by norm_num)
    have h2 := hsum_replicate (k := 0) (by norm_num) 65536 98304 (by norm_num)
    rw [happ]
    norm_num at h1 h2
    rw [h1, h2]
  have hraw : rawEstimate 18 (regs 64 18 ((Finset.range 196608).image (spread 64 18))) = fin (rawQ 18 163840) := by
    rw [(regs_regs _ (by omega) : Regs 18 _).raw_eq (by omega) le_rfl, hrb, show 2 ^ 18 - 196608 = 65536 from rfl, hh]
  have hcor : le (fin (rawQ 18 163840)) (num (5 * 2 ^ 18)) = true ∧
      sub (fin (rawQ 18 163840)) (Plus.biasOf cfg.search 18 (fin (rawQ 18 163840))) = fin (858229406627355 / 4294967296) := by
    constructor
    · decide +kernel
    · cases cfg.search <;> decide +kernel
  refine ⟨y, 858229406627355 / 4294967296, ?_, ?_, by norm_num, by norm_num; linarith⟩
  · rw [plusCount, if_neg hfat, plusDense, hra, hcount, show 2 ^ 18 - 192512 = 69632 from rfl, if_pos, l1]
    refine ⟨by norm_num, ?_⟩
    rw [l1, show threshold 18 = 350000 from rfl, num, le_fin]
    exact_mod_cast hy2
  · rw [plusCount, if_neg hfat', plusDense, hraw, hrb, hcount, show 2 ^ 18 - 196608 = 65536 from rfl, if_neg,
      if_pos hcor.1, hcor.2]
    rintro ⟨_, h⟩
    rw [m1, show threshold 18 = 350000 from rfl, num, le_fin] at h
    norm_num at h
    linarith

/-- Instances of the hypotheses: the histories of `C32_plus_refuted` and `C32_pf_refuted`. -/
example : Supported Cfg.debug64 (noCodec Nat) (stepPlus 7 ++ [.insert .insert 0 7]) ∧
    ∃ a, (contents 64 18 (stepPlus 7))[0]? = some a ∧ ¬ fitsSparse a.p a.S := by
  obtain ⟨a, ha, hp, _, hf⟩ := stepPlus_contents 7 (Or.inl rfl)
  exact ⟨supported_stepPlus 8, a, ha, by rw [hp]; exact hf⟩

example : Supported Cfg.debug64 (noCodec Nat) (stepPF 15 ++ [.insert .insert 0 15]) ∧
    ∃ a b raw, (contents 32 16 (stepPF 15))[0]? = some a ∧
      (contents 32 16 (stepPF 15 ++ [.insert .insert 0 15]))[0]? = some b ∧
      rawEstimate b.p (regs 32 b.p b.S) = fin raw ∧ raw < 2 ^ 32 := by
  obtain ⟨a, ha, _⟩ := stepPF_contents 15 (Or.inl rfl)
  obtain ⟨b, hb, hp, hM⟩ := stepPF_contents 16 (Or.inr rfl)
  refine ⟨supported_stepPF 16, a, b, (rawEstimate 4 (List.replicate 16 1)).val, ha, hb, ?_, by decide +kernel⟩
  rw [hp, hM]; decide +kernel

end HLL
