import Verif.Proofs.Monotone
import Verif.Proofs.BiasTables
import Verif.Proofs.PFNum

/-! # Bounds on the estimates that hold for all hashes -/

namespace HLL
open F64 Constants

namespace Tables

/-- What is checked of each entry: estimate minus bias is at least `1.16 (r - α m)`. -/
def chordOk (i : ℕ) (r b : ℤ × ℕ) : Bool :=
  let A : ℤ := alphaLo.getD i 0
  decide (116 * (sc r - A * 2 ^ (i + 4) * 10 ^ 4) ≤ 100 * (sc r - sc b))

theorem chord_ok : ∀ i < 15, entriesOk (chordOk i) (rawL i) (biasL i) = true := by decide +kernel

/-- Estimate minus bias is at least `4 m` at the last entry. -/
def lastOk (i : ℕ) (rs bs : List (ℤ × ℕ)) : Bool :=
  decide (4 * 2 ^ (i + 4) * 10 ^ 16 ≤ sc (rs.getD (rs.length - 1) (0, 0)) -
    sc (bs.getD (rs.length - 1) (0, 0)))

theorem last_ok : ∀ i < 15, lastOk i (rawL i) (biasL i) = true := by decide +kernel

end Tables

namespace Plus
open Spec

theorem chord {p : Nat} (hp1 : 4 ≤ p) (hp2 : p ≤ 18) {k : Nat} (hk : k < (rawTable p).length) :
    1.16 * (rawV p k - alphaQ p * 2 ^ p) - 1 / 2 ^ 29 ≤ rawV p k - biasV p k := by
  obtain ⟨_, h1, h2⟩ := vals hp1 hp2 hk
  have h3 := Tables.entriesOk_get (Tables.chord_ok (p - 4) (by omega)) k (by rwa [rawL_length])
  have h4 := (Tables.alphaLo_ok ⟨p - 4, by omega⟩).1
  simp only [Tables.chordOk, decide_eq_true_eq, show p - 4 + 4 = p by omega] at h3
  simp only [show 4 + (p - 4) = p by omega] at h4
  have h5 := (Int.cast_le (R := ℚ)).2 h3
  push_cast at h5
  generalize (Tables.sc ((Tables.rawL (p - 4)).getD k (0, 0)) : ℚ) = r at *
  generalize (Tables.sc ((Tables.biasL (p - 4)).getD k (0, 0)) : ℚ) = b at *
  generalize ((Tables.alphaLo.getD (p - 4) 0 : ℕ) : ℚ) = A at *
  have hm : (0 : ℚ) < 2 ^ p := by positivity
  generalize (2 : ℚ) ^ p = m at *
  have h6 : A * m ≤ alphaQ p * 10 ^ 12 * m := mul_le_mul_of_nonneg_right h4 hm.le
  generalize alphaQ p = al at *
  have h1 := abs_le.1 h1
  have h2 := abs_le.1 h2
  generalize rawV p k = R at *
  generalize biasV p k = B at *
  have e : al * 10 ^ 12 * m = al * m * 10 ^ 12 := by ring
  rw [e] at h6
  generalize al * m = z at *
  norm_num at h1 h2 h5 h6 ⊢
  linarith [h1.1, h1.2, h2.1, h2.2]

theorem last_large {p : Nat} (hp1 : 4 ≤ p) (hp2 : p ≤ 18) :
    3 * 2 ^ p ≤ rawV p ((rawTable p).length - 1) - biasV p ((rawTable p).length - 1) := by
  have hlen := table_lengths hp1 hp2
  obtain ⟨_, h1, h2⟩ := vals hp1 hp2 (k := (rawTable p).length - 1) (by omega)
  have h3 := Tables.last_ok (p - 4) (by omega)
  simp only [Tables.lastOk, decide_eq_true_eq, show p - 4 + 4 = p by omega, rawL_length] at h3
  have h5 := (Int.cast_le (R := ℚ)).2 h3
  push_cast at h5
  have hm : (1 : ℚ) ≤ 2 ^ p := one_le_pow₀ (by norm_num)
  generalize (Tables.sc ((Tables.rawL (p - 4)).getD ((rawTable p).length - 1) (0, 0)) : ℚ) = r at *
  generalize (Tables.sc ((Tables.biasL (p - 4)).getD ((rawTable p).length - 1) (0, 0)) : ℚ) = b at *
  generalize (2 : ℚ) ^ p = m at *
  generalize rawV p _ = R at *
  generalize biasV p _ = B at *
  have h1 := abs_le.1 h1
  have h2 := abs_le.1 h2
  norm_num at h1 h2 h5
  linarith [h1.1, h1.2, h2.1, h2.2]

/-- Raw estimate minus bias is at least `1.16` times its excess over `α m`, or large. -/
theorem BiasCase.chord {p : Nat} (hp1 : 4 ≤ p) (hp2 : p ≤ 18) {raw β : ℚ} (h : BiasCase p raw β) :
    1.16 * (raw - alphaQ p * 2 ^ p) - 1 / 2 ^ 28 ≤ raw - β ∨ 3 * 2 ^ p ≤ raw - β := by
  have hlen := table_lengths hp1 hp2
  cases h with
  | low h1 h2 =>
    left
    have := Plus.chord hp1 hp2 (k := 0) (by omega)
    rw [h2]
    norm_num at this ⊢
    linarith
  | high h1 h2 =>
    right
    have := last_large hp1 hp2
    rw [h2]
    linarith
  | mid k t hk ht0 ht1 ht _ hβ =>
    left
    have g := Plus.chord hp1 hp2 (k := k) (by omega)
    have g' := Plus.chord hp1 hp2 hk
    have e : raw - (biasV p k + t * (biasV p (k + 1) - biasV p k)) =
        (1 - t) * (rawV p k - biasV p k) + t * (rawV p (k + 1) - biasV p (k + 1)) := by
      have : raw = rawV p k + (rawV p (k + 1) - rawV p k) * t := by linarith
      rw [this]; ring
    have e' : 1.16 * (raw - alphaQ p * 2 ^ p) - 1 / 2 ^ 29 =
        (1 - t) * (1.16 * (rawV p k - alphaQ p * 2 ^ p) - 1 / 2 ^ 29) +
          t * (1.16 * (rawV p (k + 1) - alphaQ p * 2 ^ p) - 1 / 2 ^ 29) := by
      have : raw = rawV p k + (rawV p (k + 1) - rawV p k) * t := by linarith
      rw [this]; ring
    have g1 := mul_le_mul_of_nonneg_left g (by linarith : 0 ≤ 1 - t)
    have g2 := mul_le_mul_of_nonneg_left g' ht0
    have := (_root_.abs_le.1 hβ).2
    norm_num at *
    linarith

end Plus

namespace Spec

theorem neg_log_two {x : ℝ} (h0 : 0 ≤ x) (h1 : x < 1) : x + x ^ 2 / 2 ≤ -Real.log (1 - x) := by
  have hs := Real.hasSum_pow_div_log_of_abs_lt_one (x := x) (by rwa [abs_of_nonneg h0])
  have h3 := sum_le_hasSum (Finset.range 2) (fun n _ => by positivity) hs
  simp only [Finset.sum_range_succ, Finset.sum_range_zero] at h3
  norm_num at h3
  linarith

/-- Linear counting is at least the number of occupied registers. -/
theorem linear_ge {ln : F64 → F64} (hln : LnSpec ln) {m V : ℕ} (h0 : 0 < V) (hV : V ≤ m)
    (hm : m ≤ 2 ^ 18) : ∃ y : ℚ, linear ln m V = fin y ∧ (m : ℚ) - V ≤ y := by
  obtain ⟨y, h1, h2, h3⟩ := linear_approx hln h0 hV (by omega)
  refine ⟨y, h1, ?_⟩
  rcases hV.eq_or_lt with rfl | hlt
  · rw [h2 rfl]; simp
  have hm0 : (0 : ℝ) < m := by exact_mod_cast (by omega : 0 < m)
  have hV0 : (0 : ℝ) < V := by exact_mod_cast h0
  have hk : (1 : ℝ) ≤ m - V := by
    have : V + 1 ≤ m := hlt
    have : (V : ℝ) + 1 ≤ m := by exact_mod_cast this
    linarith
  have hm18 : (m : ℝ) ≤ 262144 := by
    have : m ≤ 262144 := hm
    exact_mod_cast this
  have hL : (m - V : ℝ) + (m - V) ^ 2 / (2 * m) ≤ m * Real.log (m / V) := by
    have h4 := neg_log_two (x := (m - V) / m) (by positivity) (by
      rw [div_lt_one hm0]; linarith)
    have e : 1 - (m - V : ℝ) / m = ((m : ℝ) / V)⁻¹ := by
      rw [inv_div]; field_simp; ring
    rw [e, Real.log_inv, neg_neg] at h4
    have h5 := mul_le_mul_of_nonneg_left h4 hm0.le
    refine le_trans (le_of_eq ?_) h5
    field_simp
  have h4 := (abs_le.1 h3).1
  generalize (m : ℝ) * Real.log (m / V) = L at *
  have h5 : ((m : ℝ) - V) / 2 ^ 19 ≤ (m - V) ^ 2 / (2 * m) := by
    rw [div_le_div_iff₀ (by norm_num) (by positivity)]
    have : (m - V : ℝ) * (2 * m) ≤ (m - V) * 2 ^ 19 := by
      apply mul_le_mul_of_nonneg_left _ (by linarith); linarith
    nlinarith
  have h6 : (m : ℝ) / 2 ^ 51 ≤ 1 / 2 ^ 33 := by
    rw [div_le_div_iff₀ (by norm_num) (by norm_num)]
    linarith
  have h7 : (m - V : ℝ) * (1 + 1 / 2 ^ 19) ≤ L := by
    refine le_trans (le_of_eq ?_) (le_trans (add_le_add_right h5 _) hL)
    ring
  have h8 : (m : ℝ) - V ≤ y := by
    have : (m - V : ℝ) * (1 + 1 / 2 ^ 19) * (1 - 1 / 2 ^ 39) ≤ L * (1 - 1 / 2 ^ 39) :=
      mul_le_mul_of_nonneg_right h7 (by norm_num)
    generalize (m - V : ℝ) = k at *
    norm_num at *
    linarith
  have : (((m : ℚ) - V : ℚ) : ℝ) ≤ y := by push_cast; exact h8
  exact_mod_cast this

/-- The sum is exact if all registers are equal. -/
theorem hsum_replicate {k : Nat} (hk : k ≤ 1000) : ∀ (n i : ℕ), i + n ≤ 2 ^ 53 →
    hsum ((i : ℚ) * (1 / 2 ^ k)) (List.replicate n k) = ((i + n : ℕ) : ℚ) * (1 / 2 ^ k)
  | 0, i, _ => by simp [hsum]
  | n + 1, i, h => by
    rw [List.replicate_succ, hsum]
    have e : (i : ℚ) * (1 / 2 ^ k) + 1 / 2 ^ k = ((i + 1 : ℕ) : ℚ) * (1 / 2 ^ k) := by
      push_cast; ring
    have h2 : rnd (((i + 1 : ℕ) : ℚ) * (1 / 2 ^ k)) = ((i + 1 : ℕ) : ℚ) * (1 / 2 ^ k) := by
      have := rnd_of_int_mul (K := ℚ) (m := ((i + 1 : ℕ) : ℤ)) (e := -(k : ℤ)) (by
        rw [Nat.abs_cast]; exact_mod_cast (by omega)) (by omega)
      rw [zpow_neg, zpow_natCast] at this
      rw [one_div]
      exact_mod_cast this
    rw [e, h2, hsum_replicate hk n (i + 1) (by omega)]
    congr 2
    omega

theorem hsum_ge_replicate {K : Nat} (hK : K ≤ 1000) {M : List Nat} (hl : M.length ≤ 2 ^ 53)
    (h : ∀ r ∈ M, r ≤ K) : (M.length : ℚ) / 2 ^ K ≤ hsum 0 M := by
  have h1 := hsum_replicate hK M.length 0 (by omega)
  have h2 : hsum 0 (List.replicate M.length K) ≤ hsum 0 M := by
    apply hsum_mono le_rfl
    rw [List.forall₂_iff_get]
    refine ⟨by simp, fun i h1 h2 => ?_⟩
    simp only [List.get_eq_getElem, List.getElem_replicate]
    exact h _ (List.getElem_mem _)
  simp only [Nat.cast_zero, zero_mul, zero_add] at h1
  rw [h1] at h2
  rw [div_eq_mul_one_div]
  exact h2

/-- The sum is at most `(m + V)/2`. -/
theorem hsum_le_zeros {p : Nat} (hp2 : p ≤ 18) {M : List Nat} (hl : M.length = 2 ^ p) :
    hsum 0 M ≤ (2 ^ p + M.count 0) / 2 := by
  have h18 : 2 ^ p ≤ 2 ^ 18 := Nat.pow_le_pow_right (by norm_num) hp2
  have h1 : hsum 0 M ≤ hsum 0 (M.map (min 1)) := by
    apply hsum_mono le_rfl
    rw [List.forall₂_map_right_iff]
    exact List.forall₂_same.2 fun r _ => min_le_right _ _
  have h2 := hsum_exact (k := 1) (by norm_num) (M.map (min 1)) 0 0 (by
    intro r hr
    obtain ⟨j, _, rfl⟩ := List.mem_map.1 hr
    exact min_le_left _ _) (by norm_num) (by rw [List.length_map, hl]; omega)
  simp only [Nat.cast_zero, zero_mul, zero_add] at h2
  rw [h2] at h1
  refine h1.trans (le_of_eq ?_)
  have h3 : ∀ M : List Nat, hexact (M.map (min 1)) = ((M.length : ℚ) + M.count 0) / 2 := by
    intro M
    induction M with
    | nil => simp [hexact]
    | cons r M ih =>
      rw [List.map_cons, hexact_cons, ih]
      rcases Nat.eq_zero_or_pos r with rfl | hr
      · simp; ring
      · rw [min_eq_left hr, List.count_cons_of_ne (by omega)]
        simp; ring
  rw [h3, hl]
  push_cast; rfl

/-- Lower bound for the raw estimate with `V` empty registers. -/
theorem raw_ge_zeros {p : Nat} (hp1 : 4 ≤ p) (hp2 : p ≤ 18) {M : List Nat} (hM : Regs p M) :
    2 * alphaQ p * 2 ^ p * 2 ^ p * (1 - 1 / 2 ^ 51) ≤ rawQ p (hsum 0 M) * (2 ^ p + M.count 0) := by
  have h1 := hsum_le_zeros hp2 hM.length
  obtain ⟨_, h2, _⟩ := hM.hsum_bounds hp2
  have h0 : 0 < hsum 0 M := lt_of_lt_of_le (by positivity) h2
  obtain ⟨h3, _⟩ := rawNum_bounds hp1 hp2
  obtain ⟨_, ha1, _⟩ := alpha_facts hp1 hp2
  have hm : (16 : ℚ) ≤ 2 ^ p := by
    calc (16 : ℚ) = 2 ^ 4 := by norm_num
      _ ≤ 2 ^ p := pow_le_pow_right₀ (by norm_num) hp1
  have hVm : (M.count 0 : ℚ) ≤ 2 ^ p := by
    have : M.count 0 ≤ 2 ^ p := by rw [← hM.length]; exact List.count_le_length
    exact_mod_cast this
  have hV0 : (0 : ℚ) ≤ M.count 0 := by positivity
  unfold rawQ
  generalize rnd (alphaQ p * (2 ^ p * 2 ^ p)) = N at *
  generalize (M.count 0 : ℚ) = V at *
  generalize (2 : ℚ) ^ p = m at *
  generalize hsum 0 M = H at *
  generalize alphaQ p = a at *
  have hN : (100 : ℚ) ≤ N := by
    have : (67 / 100 : ℚ) * (16 * 16) ≤ a * (m * m) := by gcongr
    norm_num at h3 this ⊢
    linarith
  have h4 : 2 * N / (m + V) ≤ N / H := by
    rw [div_le_div_iff₀ (by linarith) h0]
    nlinarith
  have hNm : (1 : ℚ) * m ≤ N := by
    have : (67 / 100 : ℚ) * (16 * m) ≤ a * (m * m) := by gcongr
    norm_num at h3 this ⊢
    linarith
  have h6 : N / H * (1 - 1 / 2 ^ 52) ≤ rnd (N / H) := by
    have hx : (1 : ℚ) ≤ N / H := by
      rw [le_div_iff₀ h0]
      linarith
    have := (abs_le.1 (rnd_err' (N / H))).1
    rw [abs_of_pos (by linarith)] at this
    norm_num at hx this ⊢
    linarith
  have h7 : 2 * N / (m + V) * (1 - 1 / 2 ^ 52) ≤ rnd (N / H) :=
    (mul_le_mul_of_nonneg_right h4 (by norm_num)).trans h6
  have h8 := mul_le_mul_of_nonneg_right h7 (by linarith : 0 ≤ m + V)
  have e : 2 * N / (m + V) * (1 - 1 / 2 ^ 52) * (m + V) = 2 * N * (1 - 1 / 2 ^ 52) := by
    have : m + V ≠ 0 := by linarith
    field_simp
  rw [e] at h8
  refine le_trans ?_ h8
  have e2 : 2 * a * m * m = 2 * (a * (m * m)) := by ring
  rw [e2]
  generalize a * (m * m) = z at *
  norm_num at h3 ⊢
  linarith

/-- If linear counting is above the threshold then at most 74 % of the registers are empty. -/
theorem zeros_of_threshold {ln : F64 → F64} (hln : LnSpec ln) {p V : Nat} (hp1 : 4 ≤ p) (hp2 : p ≤ 18)
    (hV : V ≤ 2 ^ p)
    (h : ¬ (V ≠ 0 ∧ le (linear ln (2 ^ p) V) (num (threshold p)) = true)) :
    (V : ℚ) ≤ 0.74 * 2 ^ p := by
  have hm0 : (0 : ℚ) < 2 ^ p := by positivity
  rcases Nat.eq_zero_or_pos V with rfl | h0
  · norm_num
  have h18 : 2 ^ p ≤ 2 ^ 18 := Nat.pow_le_pow_right (by norm_num) hp2
  obtain ⟨y, h1, _, h3⟩ := linear_approx hln h0 hV (by omega)
  have ht : 5 * 2 ^ p ≤ 16 * threshold p := by
    have : ∀ q : Fin 15, 5 * 2 ^ (4 + q : ℕ) ≤ 16 * threshold (4 + q) := by decide
    have := this ⟨p - 4, by omega⟩
    simpa only [show 4 + (p - 4) = p by omega] using this
  have hy : (threshold p : ℚ) < y := by
    by_contra hc
    apply h
    refine ⟨by omega, ?_⟩
    rw [h1, num, le_fin]
    exact not_lt.1 hc
  have hyR : (threshold p : ℝ) < y := by
    have := (Rat.cast_lt (K := ℝ)).2 hy
    push_cast at this; exact this
  have htR : (5 : ℝ) * 2 ^ p ≤ 16 * threshold p := by exact_mod_cast ht
  have hV0 : (0 : ℝ) < V := by exact_mod_cast h0
  have hmR : (0 : ℝ) < 2 ^ p := by positivity
  have h4 := (abs_le.1 h3).2
  push_cast at h4
  have hL : 0.312 ≤ Real.log (2 ^ p / V) := by
    by_contra hc
    rw [not_le] at hc
    have := mul_lt_mul_of_pos_left hc hmR
    generalize (2 : ℝ) ^ p * Real.log (2 ^ p / V) = L at *
    generalize (2 : ℝ) ^ p = m at *
    norm_num at this h4
    linarith
  have h5 : 1.3606 ≤ (2 : ℝ) ^ p / V := by
    have h6 := Real.quadratic_le_exp_of_nonneg (x := 0.312) (by norm_num)
    have h7 := Real.exp_le_exp.2 hL
    rw [Real.exp_log (by positivity)] at h7
    norm_num at h6 h7 ⊢
    linarith
  rw [le_div_iff₀ hV0] at h5
  have : (V : ℝ) ≤ 0.74 * 2 ^ p := by norm_num at h5 ⊢; linarith
  have : ((V : ℚ) : ℝ) ≤ ((0.74 * 2 ^ p : ℚ) : ℝ) := by push_cast; norm_num at this ⊢; exact this
  exact_mod_cast this

theorem corrected_arith_worst {m V a raw : ℚ} (hm : 16 ≤ m) (hV0 : 0 ≤ V) (hV : V ≤ 0.74 * m)
    (ha : 67 / 100 ≤ a) (ha2 : a ≤ 73 / 100) (hm2 : m ≤ 2 ^ 18)
    (h : 2 * a * m * m * (1 - 1 / 2 ^ 51) ≤ raw * (m + V)) :
    0.444 * (m - V) ≤ 1.16 * (raw - a * m) - 1 / 2 ^ 28 := by
  have hs : 0 < m + V := by linarith
  have ham : a * m ≤ 2 ^ 18 := by nlinarith
  have ham0 : 67 / 100 * m ≤ a * m := mul_le_mul_of_nonneg_right ha (by linarith)
  -- raw - a m ≥ a m (m - V)/(m + V) - small
  have h1 : a * m * (m - V) ≤ (raw - a * m + 1 / 2 ^ 31) * (m + V) := by
    have h2 : 2 * a * m * m / 2 ^ 51 ≤ 1 / 2 ^ 31 * (m + V) := by
      have : a * m * m ≤ 2 ^ 18 * m := mul_le_mul_of_nonneg_right ham (by linarith)
      norm_num at this ⊢
      linarith
    have e : 2 * a * m * m * (1 - 1 / 2 ^ 51) = 2 * a * m * m - 2 * a * m * m / 2 ^ 51 := by ring
    rw [e] at h
    linarith
  have h3 : 67 / 174 * (m + V) * (m - V) ≤ a * m * (m - V) := by
    apply mul_le_mul_of_nonneg_right _ (by norm_num at hV; linarith)
    norm_num at hV ham0 ⊢
    linarith
  have h4 : 67 / 174 * (m - V) ≤ raw - a * m + 1 / 2 ^ 31 := by
    have : 67 / 174 * (m - V) * (m + V) ≤ (raw - a * m + 1 / 2 ^ 31) * (m + V) := by linarith
    exact le_of_mul_le_mul_right this hs
  norm_num at h4 hV ⊢
  linarith

/-- Bounds for the dense estimate of HyperLogLog++. -/
theorem plusDense_bounds {ln : F64 → F64} (hln : LnSpec ln) {v : Search} {p : Nat} (hp1 : 4 ≤ p)
    (hp2 : p ≤ 18) {M : List Nat} (hM : Regs p M) (hr : ∀ r ∈ M, r ≤ 65 - p) :
    ∃ y : ℚ, plusDense ln (Plus.biasOf v p) p M = fin y ∧ 0.44 * (2 ^ p - M.count 0) ≤ y ∧
      y ≤ 187 * 2 ^ 57 ∧ (M.count 0 < 2 ^ p → 1 ≤ y) := by
  have h18 : 2 ^ p ≤ 2 ^ 18 := Nat.pow_le_pow_right (by norm_num) hp2
  have hcl : M.count 0 ≤ 2 ^ p := by rw [← hM.length]; exact List.count_le_length
  obtain ⟨hr1, hr2⟩ := hM.raw_bounds hp1 hp2
  obtain ⟨_, ha1, ha2⟩ := alpha_facts hp1 hp2
  have hm16 : (16 : ℚ) ≤ 2 ^ p := by
    calc (16 : ℚ) = 2 ^ 4 := by norm_num
      _ ≤ 2 ^ p := pow_le_pow_right₀ (by norm_num) hp1
  have hm18 : (2 : ℚ) ^ p ≤ 2 ^ 18 := by exact_mod_cast h18
  have hclQ : (M.count 0 : ℚ) ≤ 2 ^ p := by exact_mod_cast hcl
  have hV0 : (0 : ℚ) ≤ M.count 0 := by positivity
  rw [plusDense]
  by_cases hl : M.count 0 ≠ 0 ∧ le (linear ln (2 ^ p) (M.count 0)) (num (threshold p)) = true
  · rw [if_pos hl]
    obtain ⟨y, h1, h2⟩ := linear_ge hln (Nat.pos_of_ne_zero hl.1) hcl h18
    push_cast at h2
    have ht : threshold p ≤ 350000 := by
      have : ∀ q : Fin 15, threshold (4 + q) ≤ 350000 := by decide
      have := this ⟨p - 4, by omega⟩
      simpa only [show 4 + (p - 4) = p by omega] using this
    have h3 : y ≤ 350000 := by
      have h4 := hl.2
      rw [h1, num, le_fin] at h4
      have : (threshold p : ℚ) ≤ 350000 := by exact_mod_cast ht
      linarith
    refine ⟨y, h1, ?_, by norm_num; linarith, fun h => ?_⟩
    · norm_num; linarith
    · have : M.count 0 + 1 ≤ 2 ^ p := h
      have : (M.count 0 : ℚ) + 1 ≤ 2 ^ p := by exact_mod_cast this
      linarith
  · have hV := zeros_of_threshold hln hp1 hp2 hcl hl
    rw [if_neg hl, hM.raw_eq hp1 hp2]
    have hrr : rnd (rawQ p (hsum 0 M)) = rawQ p (hsum 0 M) := rnd_rnd _
    by_cases h5 : le (fin (rawQ p (hsum 0 M))) (num (5 * 2 ^ p)) = true
    · rw [if_pos h5]
      have h5' : rawQ p (hsum 0 M) ≤ 5 * 2 ^ p := by
        have := (le_fin _ _).1 h5
        push_cast at this
        exact this
      obtain ⟨β, hc, h2, _⟩ := Plus.corrected_eq (v := v) hp1 hp2 hrr hr1 h5'
      have hab := abs_le.1 (hc.abs_le hp1 hp2)
      have hge := raw_ge_zeros hp1 hp2 hM
      refine ⟨_, h2, ?_⟩
      have hlow : 0.444 * (2 ^ p - (M.count 0 : ℚ)) ≤ rawQ p (hsum 0 M) - β := by
        rcases hc.chord hp1 hp2 with h | h
        · exact (corrected_arith_worst hm16 hV0 hV ha1 ha2 hm18 hge).trans h
        · norm_num; linarith
      have hup : rawQ p (hsum 0 M) - β ≤ 2 ^ 21 := by
        norm_num at hm18 ⊢; linarith [hab.1]
      have herr := abs_le.1 (rnd_err' (rawQ p (hsum 0 M) - β))
      generalize rawQ p (hsum 0 M) - β = x at *
      have hx0 : 0 ≤ x := by norm_num at hlow; linarith
      rw [abs_of_nonneg hx0] at herr
      generalize (M.count 0 : ℚ) = V at *
      generalize (2 : ℚ) ^ p = m at *
      have hy : 0.44 * (m - V) ≤ rnd x := by
        have := herr.1
        norm_num at hlow hV this ⊢
        linarith
      refine ⟨hy, ?_, fun _ => ?_⟩
      · have := herr.2
        norm_num at hup this ⊢
        linarith
      · norm_num at hV hy
        linarith
    · rw [if_neg h5]
      have h5' : 5 * 2 ^ p < rawQ p (hsum 0 M) := by
        by_contra hc
        apply h5
        rw [num, le_fin]
        push_cast
        exact not_lt.1 hc
      refine ⟨_, rfl, by norm_num; linarith, ?_, fun _ => by linarith⟩
      have h6 := hsum_ge_replicate (K := 65 - p) (by omega) (by rw [hM.length]; omega) hr
      have h7 := rawNum_le hp1 hp2
      rw [hM.length] at h6
      push_cast at h6
      unfold rawQ
      have e : rnd (187 * 2 ^ 57 : ℚ) = 187 * 2 ^ 57 := by
        have := rnd_of_int_mul (K := ℚ) (m := 187) (e := 57) (by norm_num) (by norm_num)
        exact_mod_cast this
      apply rnd_le_of_le e
      rw [Rat.cast_id]
      have h0 : (0 : ℚ) < 2 ^ p / 2 ^ (65 - p) := by positivity
      rw [div_le_iff₀ (lt_of_lt_of_le h0 h6)]
      refine h7.trans ?_
      have e2 : (187 : ℚ) / 256 * (2 ^ p * 2 ^ p) = 187 * 2 ^ 57 * (2 ^ p / 2 ^ (65 - p)) := by
        have : (2 : ℚ) ^ 65 = 2 ^ p * 2 ^ (65 - p) := by rw [← pow_add]; congr 1; omega
        have h3 : (2 : ℚ) ^ (65 - p) ≠ 0 := by positivity
        have h4 : (2 : ℚ) ^ p = 2 ^ 65 / 2 ^ (65 - p) := by rw [this]; field_simp
        rw [h4]
        field_simp
        norm_num
      rw [e2]
      exact mul_le_mul_of_nonneg_left h6 (by norm_num)

/-- The large range correction is at most `37 · 2^32`. -/
theorem largeRange_le {ln : F64 → F64} (hln : LnSpec ln) {q : ℚ} (hq : rnd q = q)
    (h1 : 2 ^ 32 / 31 ≤ q) (h2 : q < 2 ^ 32) :
    ∃ y : ℚ, mul (mul (neg (num 1)) (num (2 ^ 32)))
        (ln (sub (num 1) (div (fin q) (num (2 ^ 32))))) = fin y ∧ q ≤ y ∧ y ≤ 37 * 2 ^ 32 := by
  obtain ⟨y0, k0, k1⟩ := largeRange_ge hln hq h1 h2
  obtain ⟨y, l1, l2, l3, l4, l5, l6⟩ := largeRange_lt hln hq h1 h2
  refine ⟨y0, k0, k1, ?_⟩
  rw [k0] at l1
  injection l1 with e
  rw [e]
  have e37 : rnd (37 * 2 ^ 32 : ℚ) = 37 * 2 ^ 32 := by
    have := rnd_of_int_mul (K := ℚ) (m := 37) (e := 32) (by norm_num) (by norm_num)
    exact_mod_cast this
  apply rnd_le_of_le e37
  rw [Rat.cast_id]
  have hq1 : 1 ≤ q := le_trans (by norm_num) h1
  have hd := rnd_div_two32 hq hq1
  have hx0 : 0 < q / 2 ^ 32 := div_pos (by linarith) (by norm_num)
  have hlt : q / 2 ^ 32 < 1 := by rw [div_lt_one (by norm_num)]; exact h2
  have h53 : rnd ((2 : ℚ) ^ (-53 : ℤ)) = 2 ^ (-53 : ℤ) := rnd_two_zpow (by norm_num)
  have hz1 : (2 : ℚ) ^ (-53 : ℤ) ≤ rnd (1 - q / 2 ^ 32) := by
    apply le_rnd_of_le h53
    rw [Rat.cast_id]
    rcases one_gap hd hx0 hlt.ne with h | h
    · linarith
    · have : (0 : ℚ) < 2 ^ (-53 : ℤ) := by positivity
      linarith
  generalize rnd (1 - q / 2 ^ 32) = z at *
  have h3 : (1 / 2 : ℝ) ^ 53 ≤ z := by
    have : (1 / 2 : ℚ) ^ 53 ≤ z := le_trans (by norm_num) hz1
    have := (Rat.cast_le (K := ℝ)).2 this
    push_cast at this; exact this
  have h4 := Real.log_le_log (by positivity) h3
  rw [Real.log_pow, one_div, Real.log_inv] at h4
  have h5 := Real.log_two_lt_d9
  have h6 := (abs_le.1 l6).1
  generalize Real.log z = l at *
  have h7 : (-37 : ℝ) ≤ y := by
    push_cast at h4
    norm_num at h4 h5 h6
    linarith
  have : -37 ≤ y := by exact_mod_cast h7
  linarith

/-- Bounds for the estimate of the original HyperLogLog. -/
theorem pfDense_bounds {ln : F64 → F64} (hln : LnSpec ln) {p : Nat} (hp1 : 4 ≤ p) (hp2 : p ≤ 16)
    {S : Finset Nat} (h : rawQ p (hsum 0 (regs 32 p S)) < 2 ^ 32) :
    ∃ y : ℚ, pfCount ln p S = fin y ∧ (2 ^ p : ℚ) - zeros 32 p S ≤ y ∧ y ≤ 37 * 2 ^ 32 := by
  have hM : Regs p (regs 32 p S) := regs_regs S (by omega)
  have h16 : 2 ^ p ≤ 2 ^ 16 := Nat.pow_le_pow_right (by norm_num) hp2
  have hm16 : (16 : ℚ) ≤ 2 ^ p := by
    calc (16 : ℚ) = 2 ^ 4 := by norm_num
      _ ≤ 2 ^ p := pow_le_pow_right₀ (by norm_num) hp1
  have hcl : zeros 32 p S ≤ 2 ^ p := zeros_le _ _ _
  have hV0 : (0 : ℚ) ≤ zeros 32 p S := by positivity
  have hrr : rnd (rawQ p (hsum 0 (regs 32 p S))) = rawQ p (hsum 0 (regs 32 p S)) := rnd_rnd _
  have hbig : ¬ (rawQ p (hsum 0 (regs 32 p S)) ≤ 5 / 2 * 2 ^ p ∧ (regs 32 p S).count 0 ≠ 0) →
      (2 ^ p : ℚ) - zeros 32 p S ≤ rawQ p (hsum 0 (regs 32 p S)) := by
    intro hn
    by_cases h5 : rawQ p (hsum 0 (regs 32 p S)) ≤ 5 / 2 * 2 ^ p
    · have h0 : (regs 32 p S).count 0 = 0 := by
        by_contra hc
        exact hn ⟨h5, hc⟩
      have hge := raw_ge_zeros hp1 (by omega) hM
      obtain ⟨_, ha1, _⟩ := alpha_facts hp1 (by omega : p ≤ 18)
      rw [h0] at hge
      rw [← count_zero_regs, h0]
      generalize rawQ p (hsum 0 (regs 32 p S)) = q at *
      generalize (2 : ℚ) ^ p = m at *
      rw [Nat.cast_zero, add_zero] at hge
      have h1 : 2 * alphaQ p * m * (1 - 1 / 2 ^ 51) ≤ q := by
        have : 2 * alphaQ p * m * (1 - 1 / 2 ^ 51) * m ≤ q * m := by linarith
        exact le_of_mul_le_mul_right this (by linarith)
      have h2 : 67 / 100 * m ≤ alphaQ p * m := mul_le_mul_of_nonneg_right ha1 (by linarith)
      rw [mul_assoc 2] at h1
      generalize alphaQ p * m = z at *
      norm_num at h1 ⊢
      linarith
    · linarith
  have hcl' := hcl.trans h16
  rcases pfRegime_cases ln hp1 hp2 S with ⟨_, _, h0, hv⟩ | ⟨hn, ⟨_, hg, hv⟩ | ⟨_, hg, hv⟩⟩
  · rw [count_zero_regs] at h0 hv
    obtain ⟨y, h1, h2⟩ := linear_ge hln (Nat.pos_of_ne_zero h0) hcl (by omega)
    obtain ⟨y', h1', _, h3⟩ := linear_approx hln (Nat.pos_of_ne_zero h0) hcl (by omega)
    rw [h1] at h1'
    injection h1' with e
    subst e
    refine ⟨y, by rw [hv, h1], by push_cast at h2; exact h2, ?_⟩
    have hlog := log_div_le (Nat.pos_of_ne_zero h0) hcl (by omega)
    have h4 := (abs_le.1 h3).2
    have hm : ((2 ^ p : ℕ) : ℝ) ≤ 65536 := by
      have : 2 ^ p ≤ 65536 := h16
      exact_mod_cast this
    have hm0 : (0 : ℝ) < ((2 ^ p : ℕ) : ℝ) := by positivity
    have h5 := mul_le_mul_of_nonneg_left hlog hm0.le
    generalize ((2 ^ p : ℕ) : ℝ) * Real.log _ = L at *
    generalize ((2 ^ p : ℕ) : ℝ) = m at *
    have : (y : ℝ) ≤ 37 * 2 ^ 32 := by
      norm_num at h4 ⊢
      linarith
    exact_mod_cast this
  · exact ⟨_, hv, hbig hn, by norm_num at h ⊢; linarith⟩
  · obtain ⟨t, ht, ht1, _⟩ := pf_large
    rw [ht] at hg
    have hqt := (gt_fin _ _).1 hg
    obtain ⟨y, h1, h2, h3⟩ := largeRange_le hln hrr (by linarith) h
    exact ⟨y, by rw [hv, h1], (hbig hn).trans h2, h3⟩

/-- The registers that are not empty are those some hash belongs to. -/
theorem zeros_add_buckets {w p : Nat} (hp : p ≤ w) {S : Finset Nat} (hS : ∀ h ∈ S, h < 2 ^ w) :
    zeros w p S + (S.image (bucket w p)).card = 2 ^ p := by
  have e : S.image (bucket w p) = (Finset.range (2 ^ p)).filter (fun j => reg w p S j ≠ 0) := by
    ext j
    simp only [Finset.mem_image, Finset.mem_filter, Finset.mem_range]
    constructor
    · rintro ⟨h, hh, rfl⟩
      refine ⟨bucket_lt hp (hS h hh), ?_⟩
      have : rank w p h ≤ reg w p S (bucket w p h) :=
        Finset.le_sup (f := rank w p) (by simp [hh])
      have := rank_pos w p h
      omega
    · rintro ⟨_, hj⟩
      by_contra hc
      apply hj
      have : S.filter (fun h => bucket w p h = j) = ∅ := by
        rw [Finset.filter_eq_empty_iff]
        intro h hh he
        exact hc ⟨h, hh, he⟩
      rw [reg, this]
      rfl
  have h := Finset.card_filter_add_card_filter_not (s := Finset.range (2 ^ p)) (fun j => reg w p S j = 0)
  rw [Finset.card_range] at h
  rw [e]
  exact h

end Spec
end HLL
