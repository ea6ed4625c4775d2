import Verif.Proofs.PFNum

/-! # Monotonicity of the estimators -/

namespace HLL
variable {v : Search}
open F64 Spec

namespace Plus

/-- Table point minus bias does not decrease (up to the rounding of the decimal literals). -/
theorem gap_mono {p : Nat} (hp1 : 4 ≤ p) (hp2 : p ≤ 18) {j k : Nat} (hjk : j ≤ k)
    (hk : k < (rawTable p).length) :
    rawV p j - biasV p j ≤ rawV p k - biasV p k + 1 / 2 ^ 29 := by
  obtain ⟨_, a1, a2⟩ := vals hp1 hp2 (k := j) (by omega)
  obtain ⟨_, a3, a4⟩ := vals hp1 hp2 hk
  have key : Tables.sc ((Tables.rawL (p - 4)).getD j (0, 0)) - Tables.sc ((Tables.biasL (p - 4)).getD j (0, 0))
      ≤ Tables.sc ((Tables.rawL (p - 4)).getD k (0, 0)) - Tables.sc ((Tables.biasL (p - 4)).getD k (0, 0)) := by
    clear a1 a2 a3 a4
    rename_i f1 f2; clear f1 f2
    induction k with
    | zero => obtain rfl : j = 0 := by omega
              exact le_rfl
    | succ k ih =>
      rcases Nat.lt_or_ge k j with h | h
      · obtain rfl : j = k + 1 := by omega
        exact le_rfl
      · have hk1 : k + 1 < (Tables.rawL (p - 4)).length := by rw [rawL_length]; exact hk
        have hpr := Tables.pairsOkT_get (Tables.pairs_ok (p - 4) (by omega)) k hk1
        simp only [Tables.pairOk, Bool.and_eq_true, decide_eq_true_eq] at hpr
        exact le_trans (ih h (by omega)) hpr.2
  generalize Tables.sc ((Tables.rawL (p - 4)).getD j (0, 0)) = r at *
  generalize Tables.sc ((Tables.rawL (p - 4)).getD k (0, 0)) = r' at *
  generalize Tables.sc ((Tables.biasL (p - 4)).getD j (0, 0)) = b at *
  generalize Tables.sc ((Tables.biasL (p - 4)).getD k (0, 0)) = b' at *
  have c2' : (r : ℚ) - b ≤ r' - b' := by exact_mod_cast key
  rw [_root_.abs_le] at a1 a2 a3 a4
  norm_num at a1 a2 a3 a4 c2' ⊢
  linarith

/-- The exactly interpolated estimate lies between those of the table points. -/
theorem mid_eq {p k : Nat} {raw t β : ℚ} (ht : raw - rawV p k = (rawV p (k + 1) - rawV p k) * t)
    (hβ : |β - (biasV p k + t * (biasV p (k + 1) - biasV p k))| ≤ 1 / 2 ^ 29) :
    |(raw - β) - ((1 - t) * (rawV p k - biasV p k) + t * (rawV p (k + 1) - biasV p (k + 1)))| ≤ 1 / 2 ^ 29 := by
  have e : (raw - β) - ((1 - t) * (rawV p k - biasV p k) + t * (rawV p (k + 1) - biasV p (k + 1))) =
      -(β - (biasV p k + t * (biasV p (k + 1) - biasV p k))) := by
    have : raw = rawV p k + (rawV p (k + 1) - rawV p k) * t := by linarith
    rw [this]; ring
  rw [e, abs_neg]; exact hβ

/-- The place found by the search grows with the raw estimate. -/
theorem posOf_mono (v : Search) {p : Nat} (hp1 : 4 ≤ p) (hp2 : p ≤ 18) {x x' : ℚ} (h : x ≤ x') :
    posOf v p (fin x) ≤ posOf v p (fin x') := by
  have hl1 : Constants.RAW_ESTIMATE_DATA.length = 15 := by
    have := congrArg List.length raw_lengths; simpa using this
  have hnn : ∀ e ∈ rawTable p, e ≠ nan := by
    apply raw_ne_nan
    rw [rawTable, List.getD_eq_getElem _ _ (by omega)]
    exact List.getElem_mem _
  obtain ⟨r, r', h1, h2, h3⟩ := binarySearch_mono v hnn (raw := fin x) (raw' := fin x') (by simp)
    (by simp) (by
      intro i hi
      rw [(facts hp1 hp2 hi).raw_eq]
      generalize rawV p i = e
      simp only [F64.cmp, F64.partialCmp, F64.val]
      rcases lt_trichotomy e x' with a | a | a
      · simp [a, ordLe]
      · subst a
        rcases h.lt_or_eq with b | b
        · simp [b.not_gt, b.ne', ordLe]
        · simp [b, ordLe]
      · have b := lt_of_le_of_lt h a
        simp [a.not_gt, a.ne', b.not_gt, b.ne', ordLe])
  rw [posOf, posOf, h1, h2]
  exact h3

/-- Between two table points the corrected estimate lies between its values there. -/
theorem mid_between {p k : Nat} (hp1 : 4 ≤ p) (hp2 : p ≤ 18) (hk : k + 1 < (rawTable p).length)
    {raw t β : ℚ} (ht0 : 0 ≤ t) (ht1 : t ≤ 1) (ht : raw - rawV p k = (rawV p (k + 1) - rawV p k) * t)
    (hβ : |β - (biasV p k + t * (biasV p (k + 1) - biasV p k))| ≤ 1 / 2 ^ 29) :
    rawV p k - biasV p k - 1 / 2 ^ 28 ≤ raw - β ∧
      raw - β ≤ rawV p (k + 1) - biasV p (k + 1) + 1 / 2 ^ 28 := by
  have hm := _root_.abs_le.1 (mid_eq ht hβ)
  have g := gap_mono hp1 hp2 (Nat.le_succ k) hk
  have b1 := mul_le_mul_of_nonneg_left g ht0
  have b2 := mul_le_mul_of_nonneg_left g (sub_nonneg.2 ht1)
  constructor <;> linarith [hm.1, hm.2]

/-- The corrected estimate is monotone up to rounding, at every precision. -/
theorem BiasCaseAt.mono {p : Nat} (hp1 : 4 ≤ p) (hp2 : p ≤ 18)
    {raw β raw' β' : ℚ} {j j' : Nat} (h : BiasCaseAt p raw β j) (h' : BiasCaseAt p raw' β' j')
    (hle : raw ≤ raw') (hj : j ≤ j') : raw - β ≤ raw' - β' + 5 / 2 ^ 29 := by
  have hlen := table_lengths hp1 hp2
  cases h with
  | low h1 h2 =>
    cases h' with
    | low _ h4 => rw [h2, h4]; linarith
    | high _ h3 h4 =>
      have := gap_mono hp1 hp2 (Nat.zero_le ((rawTable p).length - 1)) (by omega)
      rw [h2, h4]; linarith
    | mid k t _ _ _ hk ht0 ht1 ht _ hβ =>
      have := gap_mono hp1 hp2 (Nat.zero_le k) (by omega)
      have := (mid_between hp1 hp2 hk ht0 ht1 ht hβ).1
      rw [h2]; linarith
  | high h0 h1 h2 =>
    cases h' with
    | low h3 _ => linarith
    | high _ _ h4 => rw [h2, h4]; linarith
    | mid k t _ h3 => linarith
  | mid k t h0 h1 hjk hk ht0 ht1 ht hin hβ =>
    have hb := (mid_between hp1 hp2 hk ht0 ht1 ht hβ).2
    cases h' with
    | low h3 _ => linarith
    | high _ h3 h4 =>
      have := gap_mono hp1 hp2 (show k + 1 ≤ (rawTable p).length - 1 by omega) (by omega)
      rw [h4]; linarith
    | mid k' t' h0' h1' hjk' hk' ht0' ht1' ht' hin' hβ' =>
      rcases Nat.lt_or_ge k k' with hlt | hge
      · have := gap_mono hp1 hp2 (show k + 1 ≤ k' from hlt) (by omega)
        have := (mid_between hp1 hp2 hk' ht0' ht1' ht' hβ').1
        linarith
      · obtain rfl : k = k' := by omega
        have htt : t ≤ t' := by
          rcases hin with ⟨a1, a2⟩ | a
          · have hs : 0 < rawV p (k + 1) - rawV p k := by linarith
            have e : (rawV p (k + 1) - rawV p k) * t ≤ (rawV p (k + 1) - rawV p k) * t' := by linarith
            exact le_of_mul_le_mul_left e hs
          · have hgap := (neighbours hp1 hp2 hk).1
            have hne : rawV p (k + 1) - rawV p k ≠ 0 := by
              intro h0
              rw [h0, abs_zero] at hgap
              norm_num at hgap
            have e1 : raw' = rawV p (k + 1) := by
              rcases hin' with ⟨_, b⟩ | b
              · linarith
              · exact b
            have e2 : t' = 1 := by
              rw [e1] at ht'
              exact mul_left_cancel₀ hne (by linarith)
            linarith
        have m1 := _root_.abs_le.1 (mid_eq ht hβ)
        have m2 := _root_.abs_le.1 (mid_eq ht' hβ')
        have g := gap_mono hp1 hp2 (Nat.le_succ k) hk
        have b : (t' - t) * (rawV p k - biasV p k) ≤
            (t' - t) * (rawV p (k + 1) - biasV p (k + 1) + 1 / 2 ^ 29) :=
          mul_le_mul_of_nonneg_left g (sub_nonneg.2 htt)
        have b2 : (t' - t) * (1 / 2 ^ 29) ≤ 1 * (1 / 2 ^ 29) := by
          apply mul_le_mul_of_nonneg_right _ (by norm_num)
          linarith
        linarith [m1.2, m2.1]

end Plus
namespace Spec

theorem threshold_le {p : Nat} (hp1 : 4 ≤ p) (hp2 : p ≤ 18) : threshold p ≤ 5 * 2 ^ p := by
  interval_cases p <;> decide

theorem regs_raw_mono {w p : Nat} (hp1 : 4 ≤ p) (hp2 : p ≤ 18) (hw : w - p < 63) {S T : Finset Nat}
    (h : S ⊆ T) : rawQ p (hsum 0 (regs w p S)) ≤ rawQ p (hsum 0 (regs w p T)) := by
  have hM : Regs p (regs w p T) := regs_regs _ hw
  apply rawQ_anti hp1 hp2
  · exact lt_of_lt_of_le (by positivity) (hM.hsum_bounds hp2).2.1
  · exact hsum_mono le_rfl (regs_mono h)

/-- Linear counting for growing sets. -/
theorem regs_linear_mono {ln : F64 → F64} (hln : LnSpec ln) {w p : Nat} (hp2 : p ≤ 18)
    {S T : Finset Nat} (h : S ⊆ T) (h0 : (regs w p T).count 0 ≠ 0) :
    ∃ y y' : ℚ, linear ln (2 ^ p) ((regs w p S).count 0) = fin y ∧
      linear ln (2 ^ p) ((regs w p T).count 0) = fin y' ∧ y ≤ y' := by
  have h18 : 2 ^ p ≤ 2 ^ 18 := Nat.pow_le_pow_right (by norm_num) hp2
  rw [count_zero_regs] at h0
  rw [count_zero_regs, count_zero_regs]
  exact linear_le hln (Nat.pos_of_ne_zero h0) (zeros_anti h) (zeros_le _ _ _) (by omega)

/-- What a set in regime 1, 2 or 3 looks like. -/
theorem plusRegime_cases (v : Search) (ln : F64 → F64) {p : Nat} (hp1 : 4 ≤ p) (hp2 : p ≤ 18) (S : Finset Nat) :
    (plusRegime ln p S = 0 ∧ fitsSparse p S ∧
      plusCount ln (Plus.biasOf v) p S = linear ln (2 ^ 24) (2 ^ 24 - (codes p S).card)) ∨
    (plusRegime ln p S = 1 ∧ ¬ fitsSparse p S ∧ (regs 64 p S).count 0 ≠ 0 ∧
      le (linear ln (2 ^ p) ((regs 64 p S).count 0)) (num (threshold p)) = true ∧
      plusCount ln (Plus.biasOf v) p S = linear ln (2 ^ p) ((regs 64 p S).count 0)) ∨
    (¬ fitsSparse p S ∧
      ¬ ((regs 64 p S).count 0 ≠ 0 ∧
        le (linear ln (2 ^ p) ((regs 64 p S).count 0)) (num (threshold p)) = true) ∧
      ((plusRegime ln p S = 2 ∧ rawQ p (hsum 0 (regs 64 p S)) ≤ 5 * 2 ^ p ∧
        plusCount ln (Plus.biasOf v) p S = sub (fin (rawQ p (hsum 0 (regs 64 p S))))
          (Plus.biasOf v p (fin (rawQ p (hsum 0 (regs 64 p S)))))) ∨
       (plusRegime ln p S = 3 ∧ 5 * 2 ^ p < rawQ p (hsum 0 (regs 64 p S)) ∧
        plusCount ln (Plus.biasOf v) p S = fin (rawQ p (hsum 0 (regs 64 p S)))))) := by
  have hM : Regs p (regs 64 p S) := regs_regs _ (by omega)
  by_cases hf : fitsSparse p S
  · left
    refine ⟨if_pos hf, hf, if_pos hf⟩
  by_cases hl : (regs 64 p S).count 0 ≠ 0 ∧
      le (linear ln (2 ^ p) ((regs 64 p S).count 0)) (num (threshold p)) = true
  · right; left
    refine ⟨(if_neg hf).trans (if_pos hl), hf, hl.1, hl.2, (if_neg hf).trans ?_⟩
    rw [plusDense]; exact if_pos hl
  right; right
  refine ⟨hf, hl, ?_⟩
  have hr := hM.raw_eq hp1 hp2
  have h5 : ∀ q : ℚ, le (fin q) (num (5 * 2 ^ p)) = true ↔ q ≤ 5 * 2 ^ p := by
    intro q; rw [num, le_fin]; push_cast; rfl
  by_cases hq : rawQ p (hsum 0 (regs 64 p S)) ≤ 5 * 2 ^ p
  · left
    have hq' : le (rawEstimate p (regs 64 p S)) (num (5 * 2 ^ p)) = true := by
      rw [hr, h5]; exact hq
    refine ⟨(if_neg hf).trans ((if_neg hl).trans (if_pos hq')), hq, (if_neg hf).trans ?_⟩
    rw [plusDense]
    refine (if_neg hl).trans ((if_pos hq').trans ?_)
    rw [hr]
  · right
    have hq' : ¬ le (rawEstimate p (regs 64 p S)) (num (5 * 2 ^ p)) = true := by
      rw [hr, h5]; exact hq
    refine ⟨(if_neg hf).trans ((if_neg hl).trans (if_neg hq')), not_le.1 hq, (if_neg hf).trans ?_⟩
    rw [plusDense]
    refine (if_neg hl).trans ((if_neg hq').trans ?_)
    rw [hr]

/-- HyperLogLog++ goes through its estimators in one direction only. -/
theorem plusRegime_mono {ln : F64 → F64} (hln : LnSpec ln) {p : Nat} (hp1 : 4 ≤ p) (hp2 : p ≤ 18)
    {S T : Finset Nat} (h : S ⊆ T) : plusRegime ln p S ≤ plusRegime ln p T := by
  have hraw := regs_raw_mono (w := 64) hp1 hp2 (by omega) h
  rcases plusRegime_cases .earlyExit ln hp1 hp2 S with ⟨a1, _⟩ | ⟨a1, a2, a3, a4, _⟩ | ⟨a1, a2, ⟨a3, a4, _⟩ | ⟨a3, a4, _⟩⟩ <;>
    rcases plusRegime_cases .earlyExit ln hp1 hp2 T with ⟨b1, b2, _⟩ | ⟨b1, b2, b3, b4, _⟩ | ⟨b1, b2, ⟨b3, b4, _⟩ | ⟨b3, b4, _⟩⟩
  all_goals first
    | omega
    | exact absurd (fitsSparse_mono h b2) (by assumption)
    | skip
  · -- S past linear counting, T in it
    exfalso
    obtain ⟨y, y', h1, h2, h3⟩ := regs_linear_mono hln hp2 h b3
    apply a2
    have hz : zeros 64 p T ≤ zeros 64 p S := zeros_anti h
    rw [count_zero_regs] at b3
    refine ⟨by rw [count_zero_regs]; omega, ?_⟩
    rw [h2, num, le_fin] at b4
    rw [h1, num, le_fin]
    linarith
  · exfalso
    obtain ⟨y, y', h1, h2, h3⟩ := regs_linear_mono hln hp2 h b3
    apply a2
    have hz : zeros 64 p T ≤ zeros 64 p S := zeros_anti h
    rw [count_zero_regs] at b3
    refine ⟨by rw [count_zero_regs]; omega, ?_⟩
    rw [h2, num, le_fin] at b4
    rw [h1, num, le_fin]
    linarith
  · linarith

/-- HyperLogLog++ is monotone within each estimator. -/
theorem plusCount_mono {ln : F64 → F64} (hln : LnSpec ln) {p : Nat} (hp1 : 4 ≤ p) (hp2 : p ≤ 18)
    {S T : Finset Nat} (h : S ⊆ T)
    (hr : plusRegime ln p S = plusRegime ln p T ∨ (plusRegime ln p S = 1 ∧ plusRegime ln p T = 3)) :
    ∃ y y' : ℚ, plusCount ln (Plus.biasOf v) p S = fin y ∧ plusCount ln (Plus.biasOf v) p T = fin y' ∧
      y ≤ y' + 1 / 2 ^ 26 ∧ (plusRegime ln p S ≠ 2 → y ≤ y') := by
  have hraw := regs_raw_mono (w := 64) hp1 hp2 (by omega) h
  rcases plusRegime_cases v ln hp1 hp2 S with ⟨a1, a2, a3⟩ | ⟨a1, a2, a3, a4, a5⟩ | ⟨a1, a2, ⟨a3, a4, a5⟩ | ⟨a3, a4, a5⟩⟩ <;>
    rcases plusRegime_cases v ln hp1 hp2 T with ⟨b1, b2, b3⟩ | ⟨b1, b2, b3, b4, b5⟩ | ⟨b1, b2, ⟨b3, b4, b5⟩ | ⟨b3, b4, b5⟩⟩
  all_goals first
    | (exfalso; omega)
    | skip
  · -- sparse
    have hcard := card_le_encSize (codes p T)
    have hcap := capacity_le hp2
    unfold fitsSparse at b2
    have hle : (codes p S).card ≤ (codes p T).card :=
      Finset.card_le_card (Finset.image_subset_image h)
    obtain ⟨y, y', h1, h3, h4⟩ := linear_le hln (m := 2 ^ 24) (V := 2 ^ 24 - (codes p S).card)
      (V' := 2 ^ 24 - (codes p T).card) (by omega) (by omega) (by omega) le_rfl
    exact ⟨y, y', a3.trans h1, b3.trans h3, by linarith, fun _ => h4⟩
  · -- linear
    obtain ⟨y, y', h1, h3, h4⟩ := regs_linear_mono hln hp2 h b3
    exact ⟨y, y', a5.trans h1, b5.trans h3, by linarith, fun _ => h4⟩
  · -- linear, raw
    have h18 : 2 ^ p ≤ 2 ^ 18 := Nat.pow_le_pow_right (by norm_num) hp2
    have hz := zeros_le 64 p S
    rw [count_zero_regs] at a3 a4 a5
    obtain ⟨y, y', h1, _, _⟩ := linear_le hln (Nat.pos_of_ne_zero a3) le_rfl hz (by omega)
    rw [h1, num, le_fin] at a4
    have ht : (threshold p : ℚ) ≤ 5 * 2 ^ p := by exact_mod_cast threshold_le hp1 hp2
    exact ⟨y, _, a5.trans h1, b5, by linarith, fun _ => by linarith⟩
  · -- corrected
    have hM : Regs p (regs 64 p S) := regs_regs _ (by omega)
    have hM' : Regs p (regs 64 p T) := regs_regs _ (by omega)
    obtain ⟨β, c1', c2, c3⟩ := Plus.corrected_at (v := v) hp1 hp2 (rnd_rnd _) (hM.raw_bounds hp1 hp2).1 a4
    obtain ⟨β', d1', d2, d3⟩ := Plus.corrected_at (v := v) hp1 hp2 (rnd_rnd _) (hM'.raw_bounds hp1 hp2).1 b4
    have c1 := c1'.case
    have d1 := d1'.case
    refine ⟨_, _, a5.trans c2, b5.trans d2, ?_, fun h => absurd a3 h⟩
    have hmono := c1'.mono hp1 hp2 d1' hraw (Plus.posOf_mono v hp1 hp2 hraw)
    have hm : (2 : ℚ) ^ p ≤ 2 ^ 18 := pow_le_pow_right₀ (by norm_num) hp2
    have err : ∀ {raw β : ℚ}, Plus.BiasCase p raw β → alphaQ p * 2 ^ p - 1 / 2 ^ 30 ≤ raw →
        raw ≤ 5 * 2 ^ p → |rnd (raw - β) - (raw - β)| ≤ 1 / 2 ^ 29 := by
      intro raw β hc hl hu
      have e1 := rnd_err' (raw - β)
      have e2 := _root_.abs_le.1 (hc.abs_le hp1 hp2)
      have e3 : |raw - β| ≤ 2 ^ 21 := by
        have := hc.sub_ge hp1 hp2 hl
        rw [abs_of_nonneg (by linarith)]
        norm_num at hm ⊢; linarith
      refine le_trans e1 ?_
      have : |raw - β| / 2 ^ 53 ≤ 2 ^ 21 / 2 ^ 53 := div_le_div_of_nonneg_right e3 (by norm_num)
      refine le_trans (add_le_add_left this _) ?_
      norm_num
    have e1 := _root_.abs_le.1 (err c1 (hM.raw_bounds hp1 hp2).1 a4)
    have e2 := _root_.abs_le.1 (err d1 (hM'.raw_bounds hp1 hp2).1 b4)
    linarith [e1.2, e2.1]
  · exact ⟨_, _, a5, b5, by linarith, fun _ => hraw⟩

/-- What a set in the regimes of the original HyperLogLog looks like. -/
theorem pfRegime_cases (ln : F64 → F64) {p : Nat} (hp1 : 4 ≤ p) (hp2 : p ≤ 16) (S : Finset Nat) :
    (pfRegime p S = 1 ∧ rawQ p (hsum 0 (regs 32 p S)) ≤ 5 / 2 * 2 ^ p ∧ (regs 32 p S).count 0 ≠ 0 ∧
      pfCount ln p S = linear ln (2 ^ p) ((regs 32 p S).count 0)) ∨
    (¬ (rawQ p (hsum 0 (regs 32 p S)) ≤ 5 / 2 * 2 ^ p ∧ (regs 32 p S).count 0 ≠ 0) ∧
      ((pfRegime p S = 2 ∧ gt (fin (rawQ p (hsum 0 (regs 32 p S)))) (div (num (2 ^ 32)) (num 30)) = false ∧
        pfCount ln p S = fin (rawQ p (hsum 0 (regs 32 p S)))) ∨
       (pfRegime p S = 3 ∧ gt (fin (rawQ p (hsum 0 (regs 32 p S)))) (div (num (2 ^ 32)) (num 30)) = true ∧
        pfCount ln p S = mul (mul (neg (num 1)) (num (2 ^ 32)))
          (ln (sub (num 1) (div (fin (rawQ p (hsum 0 (regs 32 p S)))) (num (2 ^ 32)))))))) := by
  have hM : Regs p (regs 32 p S) := regs_regs _ (by omega)
  have hr := hM.raw_eq hp1 (by omega)
  unfold pfRegime pfCount pfDense
  simp only
  rw [hr, pf_threshold hp1 (by omega)]
  by_cases hl : rawQ p (hsum 0 (regs 32 p S)) ≤ 5 / 2 * 2 ^ p ∧ (regs 32 p S).count 0 ≠ 0
  · left
    have hl' : le (fin (rawQ p (hsum 0 (regs 32 p S)))) (fin (5 / 2 * 2 ^ p)) = true ∧
        (regs 32 p S).count 0 ≠ 0 := ⟨(le_fin _ _).2 hl.1, hl.2⟩
    rw [if_pos hl', if_pos hl']
    exact ⟨rfl, hl.1, hl.2, rfl⟩
  · right
    have hl' : ¬ (le (fin (rawQ p (hsum 0 (regs 32 p S)))) (fin (5 / 2 * 2 ^ p)) = true ∧
        (regs 32 p S).count 0 ≠ 0) := fun h => hl ⟨(le_fin _ _).1 h.1, h.2⟩
    rw [if_neg hl', if_neg hl']
    refine ⟨hl, ?_⟩
    by_cases hg : gt (fin (rawQ p (hsum 0 (regs 32 p S)))) (div (num (2 ^ 32)) (num 30)) = true
    · right; rw [if_pos hg, if_pos hg]; exact ⟨rfl, hg, rfl⟩
    · left; rw [if_neg hg, if_neg hg]; exact ⟨rfl, by simpa using hg, rfl⟩

/-- The original HyperLogLog goes through its estimators in one direction only. -/
theorem pfRegime_mono {p : Nat} (hp1 : 4 ≤ p) (hp2 : p ≤ 16) {S T : Finset Nat} (h : S ⊆ T) :
    pfRegime p S ≤ pfRegime p T := by
  have hraw := regs_raw_mono (w := 32) hp1 (by omega) (by omega) h
  have hz : (regs 32 p T).count 0 ≤ (regs 32 p S).count 0 := by
    rw [count_zero_regs, count_zero_regs]; exact zeros_anti h
  obtain ⟨t, ht, _, _⟩ := pf_large
  rcases pfRegime_cases id hp1 hp2 S with ⟨a1, _⟩ | ⟨a1, ⟨a2, _⟩ | ⟨a2, a3, _⟩⟩ <;>
    rcases pfRegime_cases id hp1 hp2 T with ⟨b1, b2, b3, _⟩ | ⟨b1, ⟨b2, b3, _⟩ | ⟨b2, _⟩⟩
  all_goals first
    | omega
    | skip
  · exact absurd ⟨by linarith, by omega⟩ a1
  · exact absurd ⟨by linarith, by omega⟩ a1
  · exfalso
    rw [ht, gt_fin] at a3
    have : gt (fin (rawQ p (hsum 0 (regs 32 p T)))) (div (num (2 ^ 32)) (num 30)) = true := by
      rw [ht, gt_fin]; linarith
    rw [this] at b3; cases b3

/-- The original HyperLogLog is monotone except where it leaves linear counting for the raw estimate. -/
theorem pfCount_mono {ln : F64 → F64} (hln : LnSpec ln) {p : Nat} (hp1 : 4 ≤ p) (hp2 : p ≤ 16)
    {S T : Finset Nat} (h : S ⊆ T) (hT : rawQ p (hsum 0 (regs 32 p T)) < 2 ^ 32)
    (hr : ¬ (pfRegime p S = 1 ∧ pfRegime p T = 2)) :
    ∃ y y' : ℚ, pfCount ln p S = fin y ∧ pfCount ln p T = fin y' ∧
      y ≤ y' * (1 + 1 / 2 ^ 37) ∧ (pfRegime p S ≠ 3 → y ≤ y') := by
  have hmono := pfRegime_mono hp1 hp2 h
  have hraw := regs_raw_mono (w := 32) hp1 (by omega) (by omega) h
  have hM : Regs p (regs 32 p S) := regs_regs _ (by omega)
  have hM' : Regs p (regs 32 p T) := regs_regs _ (by omega)
  have h16 : 2 ^ p ≤ 2 ^ 16 := Nat.pow_le_pow_right (by norm_num) hp2
  obtain ⟨t, ht, ht1, _⟩ := pf_large
  have hle : ∀ {y y' : ℚ}, 0 ≤ y' → y ≤ y' → y ≤ y' * (1 + 1 / 2 ^ 37) := by
    intro y y' h0 h1
    have : 0 ≤ y' * (1 / 2 ^ 37) := mul_nonneg h0 (by norm_num)
    linarith
  have hpos : 0 ≤ rawQ p (hsum 0 (regs 32 p T)) := by
    have := (hM'.raw_bounds hp1 (by omega)).1
    obtain ⟨_, ha1, _⟩ := alpha_facts hp1 (by omega : p ≤ 18)
    have hm : (1 : ℚ) ≤ 2 ^ p := one_le_pow₀ (by norm_num)
    norm_num at this
    nlinarith
  have hqS : rnd (rawQ p (hsum 0 (regs 32 p S))) = rawQ p (hsum 0 (regs 32 p S)) := rnd_rnd _
  have hqT : rnd (rawQ p (hsum 0 (regs 32 p T))) = rawQ p (hsum 0 (regs 32 p T)) := rnd_rnd _
  rcases pfRegime_cases ln hp1 hp2 S with ⟨a1, a2, a3, a4⟩ | ⟨a1, ⟨a2, a3, a4⟩ | ⟨a2, a3, a4⟩⟩ <;>
    rcases pfRegime_cases ln hp1 hp2 T with ⟨b1, b2, b3, b4⟩ | ⟨b1, ⟨b2, b3, b4⟩ | ⟨b2, b3, b4⟩⟩
  all_goals first
    | (exfalso; omega)
    | skip
  · obtain ⟨y, y', h1, h3, h4⟩ := regs_linear_mono hln (w := 32) (by omega) h b3
    rw [count_zero_regs] at a3
    have hz := zeros_le 32 p S
    have hy0 : 0 ≤ y := by
      obtain ⟨u, v, k1, k2, k3⟩ := linear_le hln (Nat.pos_of_ne_zero a3) hz le_rfl (by omega)
      rw [linear_self hln (by positivity) (by omega)] at k1
      rw [← count_zero_regs, h1] at k2
      cases k1; cases k2; exact k3
    exact ⟨y, y', a4.trans h1, b4.trans h3, hle (by linarith) h4, fun _ => h4⟩
  · -- linear, large
    rw [ht, gt_fin] at b3
    obtain ⟨y', k1, k2⟩ := largeRange_ge hln hqT (by linarith) hT
    rw [count_zero_regs] at a3 a4
    have hz := zeros_le 32 p S
    obtain ⟨y, l1, _, l2⟩ := linear_approx hln (Nat.pos_of_ne_zero a3) hz (by omega)
    have hL := log_div_le (Nat.pos_of_ne_zero a3) hz (by omega)
    have hyb : (y : ℝ) ≤ 2 ^ 22 := by
      have l3 := (abs_le.1 l2).2
      have hm : ((2 ^ p : ℕ) : ℝ) ≤ 2 ^ 16 := by exact_mod_cast h16
      have hm0 : (0 : ℝ) ≤ ((2 ^ p : ℕ) : ℝ) := by positivity
      generalize ((2 ^ p : ℕ) : ℝ) = m at *
      generalize Real.log (m / (zeros 32 p S : ℝ)) = L at *
      have h5 : m * L ≤ 2 ^ 16 * 24 := by
        calc m * L ≤ m * 24 := mul_le_mul_of_nonneg_left hL hm0
          _ ≤ 2 ^ 16 * 24 := mul_le_mul_of_nonneg_right hm (by norm_num)
      generalize m * L = A at *
      norm_num at l3 h5 hm ⊢
      linarith
    have hyb' : y ≤ 2 ^ 22 := by exact_mod_cast hyb
    have : y ≤ y' := by
      refine le_trans hyb' ?_
      norm_num at ht1 ⊢
      linarith
    have hy0 : 0 ≤ y' := by linarith
    exact ⟨y, y', a4.trans l1, b4.trans k1, hle hy0 this, fun _ => this⟩
  · exact ⟨_, _, a4, b4, hle hpos hraw, fun _ => hraw⟩
  · -- raw, large
    rw [ht, gt_fin] at b3
    obtain ⟨y', k1, k2⟩ := largeRange_ge hln hqT (by linarith) hT
    have : rawQ p (hsum 0 (regs 32 p S)) ≤ y' := by
      exact le_trans hraw k2
    have hy0 : 0 ≤ y' := le_trans hpos k2
    exact ⟨_, y', a4, b4.trans k1, hle hy0 this, fun _ => this⟩
  · rw [ht, gt_fin] at a3
    obtain ⟨y, y', k1, k2, k3⟩ := largeRange_mono hln hqS hqT (by linarith) hraw hT
    exact ⟨y, y', a4.trans k1, b4.trans k2, k3, fun hne => absurd a2 hne⟩

end Spec
end HLL
