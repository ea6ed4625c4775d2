import Verif.Proofs.BiasNum
import Verif.Proofs.Harmonic
import Verif.Proofs.Linear

/-! # Values of the estimators -/

namespace HLL
variable {v : Search}
open F64 Spec

namespace Plus

/-- The three cases of the bias lookup: below the table, above it, or at the fraction `t` of the
way from point `k` to point `k + 1`. -/
inductive BiasCase (p : Nat) (raw β : ℚ) : Prop
  | low : raw ≤ rawV p 0 → β = biasV p 0 → BiasCase p raw β
  | high : rawV p ((rawTable p).length - 1) ≤ raw → β = biasV p ((rawTable p).length - 1) →
      BiasCase p raw β
  | mid (k : Nat) (t : ℚ) : k + 1 < (rawTable p).length → 0 ≤ t → t ≤ 1 →
      raw - rawV p k = (rawV p (k + 1) - rawV p k) * t →
      (rawV p k < raw ∧ raw < rawV p (k + 1) ∨ raw = rawV p (k + 1)) →
      |β - (biasV p k + t * (biasV p (k + 1) - biasV p k))| ≤ 1 / 2 ^ 29 → BiasCase p raw β

/-- The same with the place `k` found by the search: `raw` lies between points `k - 1` and `k`. -/
inductive BiasCaseAt (p : Nat) (raw β : ℚ) (pos : Nat) : Prop
  | low : raw ≤ rawV p 0 → β = biasV p 0 → BiasCaseAt p raw β pos
  | high : rawV p 0 < raw → rawV p ((rawTable p).length - 1) ≤ raw →
      β = biasV p ((rawTable p).length - 1) → BiasCaseAt p raw β pos
  | mid (k : Nat) (t : ℚ) : rawV p 0 < raw → raw < rawV p ((rawTable p).length - 1) → pos = k + 1 →
      k + 1 < (rawTable p).length → 0 ≤ t → t ≤ 1 →
      raw - rawV p k = (rawV p (k + 1) - rawV p k) * t →
      (rawV p k < raw ∧ raw < rawV p (k + 1) ∨ raw = rawV p (k + 1)) →
      |β - (biasV p k + t * (biasV p (k + 1) - biasV p k))| ≤ 1 / 2 ^ 29 → BiasCaseAt p raw β pos

theorem BiasCaseAt.case {p k : Nat} {raw β : ℚ} (h : BiasCaseAt p raw β k) : BiasCase p raw β := by
  cases h with
  | low h1 h2 => exact .low h1 h2
  | high _ h1 h2 => exact .high h1 h2
  | mid k t _ _ _ h1 h2 h3 h4 h5 h6 => exact .mid k t h1 h2 h3 h4 h5 h6

theorem biasOf_casesAt (v : Search) {p : Nat} (hp1 : 4 ≤ p) (hp2 : p ≤ 18) {raw : ℚ} (hraw : rnd raw = raw) :
    ∃ β, Is (biasOf v p (fin raw)) β ∧ BiasCaseAt p raw β (posOf v p (fin raw)) := by
  have hlen := table_lengths hp1 hp2
  have h := biasOf_spec v hp1 hp2 (raw := fin raw) (by simp)
  have hm : (2 : ℚ) ^ p ≤ 2 ^ 18 := pow_le_pow_right₀ (by norm_num) hp2
  generalize biasOf v p (fin raw) = B at h
  generalize posOf v p (fin raw) = k' at *
  have f0 := (facts hp1 hp2 (k := 0) (by omega)).raw_eq
  have fl := (facts hp1 hp2 (k := (rawTable p).length - 1) (by omega)).raw_eq
  cases h with
  | low h1 =>
    have f := facts hp1 hp2 (k := 0) (by omega)
    rw [f.raw_eq] at h1
    rw [f.bias_eq]
    exact ⟨_, Is.fin _, .low ((le_fin _ _).1 h1) rfl⟩
  | high h0 h1 =>
    have f := facts hp1 hp2 (k := (rawTable p).length - 1) (by omega)
    rw [f.raw_eq] at h1
    rw [f.bias_eq]
    rw [f0, le_fin, not_le] at h0
    exact ⟨_, Is.fin _, .high h0 ((le_fin _ _).1 h1) rfl⟩
  | mid h0 hl h1 h2 h3 =>
    rw [f0, le_fin, not_le] at h0
    rw [fl, le_fin, not_le] at hl
    obtain ⟨k, rfl⟩ : ∃ k, k' = k + 1 := ⟨k' - 1, by omega⟩
    rw [Nat.add_sub_cancel] at h3
    have f := facts hp1 hp2 (k := k) (by omega)
    have f' := facts hp1 hp2 h2
    obtain ⟨hgap, _, _⟩ := neighbours hp1 hp2 h2
    rw [f.raw_eq, f'.raw_eq] at h3
    have hne : rawV p (k + 1) - rawV p k ≠ 0 := by
      intro h0
      rw [h0, abs_zero] at hgap
      norm_num at hgap
    have hd : |rawV p (k + 1) - rawV p k| ≤ 2 ^ 30 := by
      have := f.raw_ge; have := f.raw_le; have := f'.raw_ge; have := f'.raw_le
      rw [abs_le]; constructor <;> norm_num at hm ⊢ <;> linarith
    have hb : |biasV p k| ≤ 2 ^ 19 := by
      refine le_trans f.bias_le ?_
      norm_num at hm ⊢; linarith
    have hb' : |biasV p (k + 1)| ≤ 2 ^ 19 := by
      refine le_trans f'.bias_le ?_
      norm_num at hm ⊢; linarith
    have hbr : rawV p k < raw ∧ raw < rawV p (k + 1) ∨ raw = rawV p (k + 1) := by
      rcases h3 with ⟨a1, a2⟩ | a
      · exact Or.inl ⟨(Is.fin _).cmp_lt (Is.fin _) a1, (Is.fin _).cmp_gt (Is.fin _) a2⟩
      · exact Or.inr ((Is.fin _).cmp_eq (Is.fin _) a).symm
    obtain ⟨t, ht, ht0, ht1⟩ : ∃ t, raw - rawV p k = (rawV p (k + 1) - rawV p k) * t ∧ 0 ≤ t ∧ t ≤ 1 := by
      rcases hbr with ⟨a1, a2⟩ | a
      · refine ⟨(raw - rawV p k) / (rawV p (k + 1) - rawV p k), by field_simp, ?_, ?_⟩
        · exact div_nonneg (by linarith) (by linarith)
        · rw [div_le_one (by linarith)]; linarith
      · exact ⟨1, by rw [a, mul_one], by norm_num, le_rfl⟩
    obtain ⟨x, hx1, hx2⟩ := interpF_approx f.raw_rnd f'.raw_rnd f.bias_rnd f'.bias_rnd hraw hne hd hb hb'
      ht ht0 ht1
    refine ⟨x, ?_, .mid k t h0 hl rfl h2 ht0 ht1 ht hbr hx2⟩
    unfold interp
    rw [Nat.add_sub_cancel, f.raw_eq, f'.raw_eq, f.bias_eq, f'.bias_eq]
    exact hx1

theorem biasOf_cases (v : Search) {p : Nat} (hp1 : 4 ≤ p) (hp2 : p ≤ 18) {raw : ℚ} (hraw : rnd raw = raw) :
    ∃ β, Is (biasOf v p (fin raw)) β ∧ BiasCase p raw β := by
  obtain ⟨β, h1, h2⟩ := biasOf_casesAt v hp1 hp2 hraw
  exact ⟨β, h1, h2.case⟩

theorem alpha_bias0 {p : Nat} (hp1 : 4 ≤ p) (hp2 : p ≤ 18) :
    3 / 10 ≤ alphaQ p * 2 ^ p - biasV p 0 := by
  have h : ∀ q : Fin 15, 3 / 10 ≤ alphaQ (4 + q) * 2 ^ (4 + q : ℕ) - biasV (4 + q) 0 := by
    decide +kernel
  have := h ⟨p - 4, by omega⟩
  simp only at this
  rwa [show 4 + (p - 4) = p by omega] at this

/-- Subtracting the bias from a raw estimate that can occur leaves a positive number. -/
theorem BiasCase.sub_ge {p : Nat} (hp1 : 4 ≤ p) (hp2 : p ≤ 18) {raw β : ℚ} (h : BiasCase p raw β)
    (hraw : alphaQ p * 2 ^ p - 1 / 2 ^ 30 ≤ raw) : 1 / 4 ≤ raw - β := by
  have hlen := table_lengths hp1 hp2
  cases h with
  | low h1 h2 =>
    have := alpha_bias0 hp1 hp2
    rw [h2]
    norm_num at this hraw ⊢
    linarith
  | high h1 h2 =>
    have := (facts hp1 hp2 (k := (rawTable p).length - 1) (by omega)).gap
    rw [h2]
    norm_num at this ⊢
    linarith
  | mid k t hk ht0 ht1 ht _ hβ =>
    have g := (facts hp1 hp2 (k := k) (by omega)).gap
    have g' := (facts hp1 hp2 hk).gap
    have e : raw - (biasV p k + t * (biasV p (k + 1) - biasV p k)) =
        (1 - t) * (rawV p k - biasV p k) + t * (rawV p (k + 1) - biasV p (k + 1)) := by
      have : raw = rawV p k + (rawV p (k + 1) - rawV p k) * t := by linarith
      rw [this]; ring
    have g1 : (1 - t) * (1 - 1 / 2 ^ 30) ≤ (1 - t) * (rawV p k - biasV p k) :=
      mul_le_mul_of_nonneg_left g (by linarith)
    have g2 : t * (1 - 1 / 2 ^ 30) ≤ t * (rawV p (k + 1) - biasV p (k + 1)) :=
      mul_le_mul_of_nonneg_left g' ht0
    have := (abs_le.1 hβ).2
    linarith

theorem BiasCase.abs_le {p : Nat} (hp1 : 4 ≤ p) (hp2 : p ≤ 18) {raw β : ℚ} (h : BiasCase p raw β) :
    |β| ≤ 2 ^ p + 2 := by
  have hlen := table_lengths hp1 hp2
  cases h with
  | low h1 h2 =>
    have := (facts hp1 hp2 (k := 0) (by omega)).bias_le
    rw [h2]; linarith
  | high h1 h2 =>
    have := (facts hp1 hp2 (k := (rawTable p).length - 1) (by omega)).bias_le
    rw [h2]; linarith
  | mid k t hk ht0 ht1 ht _ hβ =>
    have g := (facts hp1 hp2 (k := k) (by omega)).bias_le
    have g' := (facts hp1 hp2 hk).bias_le
    rw [_root_.abs_le] at g g' hβ ⊢
    have e : biasV p k + t * (biasV p (k + 1) - biasV p k) = (1 - t) * biasV p k + t * biasV p (k + 1) := by
      ring
    rw [e] at hβ
    have b1 : (1 - t) * biasV p k ≤ (1 - t) * (2 ^ p + 1) := mul_le_mul_of_nonneg_left g.2 (by linarith)
    have b2 : (1 - t) * -(2 ^ p + 1) ≤ (1 - t) * biasV p k := mul_le_mul_of_nonneg_left g.1 (by linarith)
    have b3 : t * biasV p (k + 1) ≤ t * (2 ^ p + 1) := mul_le_mul_of_nonneg_left g'.2 ht0
    have b4 : t * -(2 ^ p + 1) ≤ t * biasV p (k + 1) := mul_le_mul_of_nonneg_left g'.1 ht0
    constructor <;> linarith [hβ.1, hβ.2]

/-- The bias-corrected estimate as a value. -/
theorem corrected_at {p : Nat} (hp1 : 4 ≤ p) (hp2 : p ≤ 18) {raw : ℚ} (hraw : rnd raw = raw)
    (h1 : alphaQ p * 2 ^ p - 1 / 2 ^ 30 ≤ raw) (h2 : raw ≤ 5 * 2 ^ p) :
    ∃ β, BiasCaseAt p raw β (posOf v p (fin raw)) ∧
      sub (fin raw) (biasOf v p (fin raw)) = fin (rnd (raw - β)) ∧ 1 / 4 ≤ rnd (raw - β) := by
  obtain ⟨β, hβ, hcAt⟩ := biasOf_casesAt v hp1 hp2 hraw
  have hc := hcAt.case
  have hge := hc.sub_ge hp1 hp2 h1
  have hab := hc.abs_le hp1 hp2
  have hm : (2 : ℚ) ^ p ≤ 2 ^ 18 := pow_le_pow_right₀ (by norm_num) hp2
  have h4 : rnd ((2 : ℚ) ^ (-2 : ℤ)) = 2 ^ (-2 : ℤ) := rnd_two_zpow (by norm_num)
  have hpos : 1 / 4 ≤ rnd (raw - β) := by
    have : (2 : ℚ) ^ (-2 : ℤ) ≤ rnd (raw - β) := by
      apply le_rnd_of_le h4
      norm_num at hge ⊢
      linarith
    norm_num at this ⊢
    linarith
  refine ⟨β, hcAt, ?_, hpos⟩
  have hi : Is (sub (fin raw) (biasOf v p (fin raw))) (rnd (raw - β)) := by
    apply (Is.fin raw).sub hβ
    apply big_le
    rw [_root_.abs_le] at hab ⊢
    constructor
    · have : -(2 : ℚ) ^ 200 ≤ 0 := by norm_num
      linarith
    · have : (2 : ℚ) ^ 30 ≤ 2 ^ 200 := by norm_num
      norm_num at hm this ⊢
      linarith
  exact hi.eq_fin (by linarith)

theorem corrected_eq {p : Nat} (hp1 : 4 ≤ p) (hp2 : p ≤ 18) {raw : ℚ} (hraw : rnd raw = raw)
    (h1 : alphaQ p * 2 ^ p - 1 / 2 ^ 30 ≤ raw) (h2 : raw ≤ 5 * 2 ^ p) :
    ∃ β, BiasCase p raw β ∧ sub (fin raw) (biasOf v p (fin raw)) = fin (rnd (raw - β)) ∧
      1 / 4 ≤ rnd (raw - β) := by
  obtain ⟨β, h3, h4⟩ := corrected_at (v := v) hp1 hp2 hraw h1 h2
  exact ⟨β, h3.case, h4⟩

end Plus

namespace Spec

theorem count_zero_regs (w p : Nat) (S : Finset Nat) : (regs w p S).count 0 = zeros w p S :=
  count_zero_map _ _

theorem zeros_le (w p : Nat) (S : Finset Nat) : zeros w p S ≤ 2 ^ p := by
  unfold zeros
  exact le_trans (Finset.card_filter_le _ _) (by simp)

theorem zeros_lt {w p : Nat} (hp : p ≤ w) {S : Finset Nat} (hS : ∀ h ∈ S, h < 2 ^ w)
    (hne : S.Nonempty) : zeros w p S < 2 ^ p := by
  obtain ⟨h, hh⟩ := hne
  unfold zeros
  conv_rhs => rw [← Finset.card_range (2 ^ p)]
  apply Finset.card_lt_card
  rw [Finset.filter_ssubset]
  refine ⟨bucket w p h, Finset.mem_range.2 (bucket_lt hp (hS h hh)), ?_⟩
  have : rank w p h ≤ reg w p S (bucket w p h) :=
    Finset.le_sup (f := rank w p) (by simp [hh])
  have := rank_pos w p h
  omega

theorem zeros_empty (w p : Nat) : zeros w p ∅ = 2 ^ p := by
  unfold zeros; simp [reg_empty]

theorem zeros_anti {w p : Nat} {S T : Finset Nat} (h : S ⊆ T) : zeros w p T ≤ zeros w p S := by
  unfold zeros
  apply Finset.card_le_card
  intro j hj
  simp only [Finset.mem_filter] at hj ⊢
  have := reg_mono (w := w) (p := p) h j
  exact ⟨hj.1, by omega⟩

/-- The dense estimate of HyperLogLog++ is finite, non-negative, and positive if some register is
occupied. -/
theorem plusDense_value {ln : F64 → F64} (hln : LnSpec ln) {p : Nat} (hp1 : 4 ≤ p) (hp2 : p ≤ 18)
    {M : List Nat} (hM : Regs p M) :
    ∃ y : ℚ, plusDense ln (Plus.biasOf v p) p M = fin y ∧ 0 ≤ y ∧ (M.count 0 < 2 ^ p → 0 < y) := by
  have h18 : 2 ^ p ≤ 2 ^ 18 := Nat.pow_le_pow_right (by norm_num) hp2
  have hcl : M.count 0 ≤ 2 ^ p := by rw [← hM.length]; exact List.count_le_length
  obtain ⟨hr1, hr2⟩ := hM.raw_bounds hp1 hp2
  obtain ⟨_, ha1, _⟩ := alpha_facts hp1 hp2
  rw [plusDense]
  by_cases hl : M.count 0 ≠ 0 ∧ le (linear ln (2 ^ p) (M.count 0)) (num (threshold p)) = true
  · rw [if_pos hl]
    rcases Nat.lt_or_ge (M.count 0) (2 ^ p) with h | h
    · obtain ⟨y, h1, h2⟩ := linear_pos hln (Nat.pos_of_ne_zero hl.1) h (by omega)
      exact ⟨y, h1, by linarith, fun _ => by linarith⟩
    · have : M.count 0 = 2 ^ p := le_antisymm hcl h
      rw [this, linear_self hln (by positivity) (by omega)]
      exact ⟨0, rfl, le_rfl, fun h => absurd h (lt_irrefl _)⟩
  · rw [if_neg hl, hM.raw_eq hp1 hp2]
    have hrr : rnd (rawQ p (hsum 0 M)) = rawQ p (hsum 0 M) := rnd_rnd _
    by_cases h5 : le (fin (rawQ p (hsum 0 M))) (num (5 * 2 ^ p)) = true
    · rw [if_pos h5]
      have h5' : rawQ p (hsum 0 M) ≤ 5 * 2 ^ p := by
        have := (le_fin _ _).1 h5
        push_cast at this
        exact this
      obtain ⟨β, _, h2, h3⟩ := Plus.corrected_eq hp1 hp2 hrr hr1 h5'
      exact ⟨_, h2, by linarith, fun _ => by linarith⟩
    · rw [if_neg h5]
      have hm : (1 : ℚ) ≤ 2 ^ p := one_le_pow₀ (by norm_num)
      have : 0 < rawQ p (hsum 0 M) := by
        norm_num at hr1
        nlinarith
      exact ⟨_, rfl, this.le, fun _ => this⟩

/-- The estimate of HyperLogLog++ is finite and non-negative; it is 0 for the empty set and positive
for all others. -/
theorem plusCount_value {ln : F64 → F64} (hln : LnSpec ln) {p : Nat} (hp1 : 4 ≤ p) (hp2 : p ≤ 18)
    {S : Finset Nat} (hS : ∀ h ∈ S, h < 2 ^ 64) :
    ∃ y : ℚ, plusCount ln (Plus.biasOf v) p S = fin y ∧ 0 ≤ y ∧ (S.Nonempty → 0 < y) ∧ (S = ∅ → y = 0) := by
  rw [plusCount]
  by_cases hf : fitsSparse p S
  · rw [if_pos hf]
    have hcard := card_le_encSize (codes p S)
    have hcap := capacity_le hp2
    have hf' := hf
    unfold fitsSparse at hf'
    rcases S.eq_empty_or_nonempty with rfl | hne
    · have : (codes p ∅).card = 0 := by simp [codes]
      rw [this, Nat.sub_zero, linear_self hln (by norm_num) le_rfl]
      exact ⟨0, rfl, le_rfl, fun h => absurd h (by simp), fun _ => rfl⟩
    · have hc : 0 < (codes p S).card := Finset.card_pos.2 (hne.image _)
      obtain ⟨y, h1, h2, _⟩ := sparse_bounds hln hc (by omega)
      have h3 : (0 : ℚ) < y := lt_of_lt_of_le (by exact_mod_cast hc) h2
      exact ⟨y, h1, h3.le, fun _ => h3, fun h => absurd h hne.ne_empty⟩
  · rw [if_neg hf]
    obtain ⟨y, h1, h2, h3⟩ := plusDense_value hln hp1 hp2 (regs_regs (w := 64) S (by omega))
    have hne : S.Nonempty := by
      by_contra hn
      rw [Finset.not_nonempty_iff_eq_empty] at hn
      subst hn
      apply hf
      unfold fitsSparse codes encSize
      simp [gapsSize]
    refine ⟨y, h1, h2, fun _ => h3 ?_, fun h => absurd h hne.ne_empty⟩
    rw [count_zero_regs]
    exact zeros_lt (by omega) hS hne

end Spec
end HLL
