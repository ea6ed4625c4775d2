import Verif.Proofs.Regimes
import Verif.Props.Tails
import Verif.Props.LnFree
import Verif.Props.Typical

/-!
# C82: which estimator `count` uses with random hashes

`count` chooses between linear counting, the raw estimate with the bias subtracted, and the raw estimate.
The choice depends on the registers, that is, on the hashes.  The theorems of this file say, for random
hashes, for which numbers of distinct values each choice is made, up to an exponentially small probability.
-/

namespace HLL
open Spec F64 Exps

variable {cfg : Cfg} {ln : F64 → F64} {ords : Nat → IterOrder × IterOrder} {p n w : Nat} {δ : ℝ}

/-- The hashes of many values do not fit the sparse representation. -/
theorem fraction_fits_le (h1 : 4 ≤ p) (h2 : p ≤ 18) (hn : 31 * (4 * 2 ^ p / 5) < 50 * n) :
    fraction (fun h : Fin n → Fin (2 ^ 64) => fitsSparse p (hashSet 64 h)) ≤ 2 / 10 ^ 7 := by
  obtain ⟨W, -, hW⟩ := Finset.exists_subset_card_eq (s := (Finset.univ : Finset (Fin n)))
    (n := 31 * capacity p / 50 + 1) (by rw [Finset.card_univ, Fintype.card_fin]; unfold capacity; omega)
  have key := fraction_still_sparse h1 h2
  rw [← hW, ← fraction_restrict W 64 fun S => 2 * (codes p S).card ≤
    capacity p + 2 * (capacity p / 100) + nClose (codes p S)] at key
  refine le_trans (fraction_mono fun h hh => ?_) key
  have h3 : fitsSparse p (W.image fun v => (h v : Nat) % 2 ^ 64) :=
    fitsSparse_mono (Finset.image_subset_image (Finset.subset_univ W)) hh
  have h4 := two_card_le (C := codes p (W.image fun v => (h v : Nat) % 2 ^ 64))
    (L := codes p (W.image fun v => (h v : Nat) % 2 ^ 64)) (T := ∅) (Finset.Subset.refl _)
    (by rw [Finset.union_empty])
  unfold fitsSparse at h3
  rw [Finset.card_empty] at h4
  omega

/-- The estimator is linear counting. -/
theorem plusCount_linear (hln : LnSpec ln) (v : Search) (h1 : 4 ≤ p) (h2 : p ≤ 18) {S : Finset Nat}
    (hf : ¬ fitsSparse p S) (hc : cutoff p ≤ (regs 64 p S).count 0) :
    plusCount ln (Plus.biasOf v) p S = linear ln (2 ^ p) ((regs 64 p S).count 0) := by
  have hr := C73_regime hln h1 h2 S
  rw [if_neg hf, if_pos hc] at hr
  rcases plusRegime_cases v ln h1 h2 S with ⟨a, _⟩ | ⟨_, _, _, _, a⟩ | ⟨_, _, ⟨a, _⟩ | ⟨a, _⟩⟩
  · omega
  · exact a
  · omega
  · omega

/-- The estimator is the raw estimate with the bias subtracted. -/
theorem plusCount_corrected (hln : LnSpec ln) (v : Search) (h1 : 4 ≤ p) (h2 : p ≤ 18) {S : Finset Nat}
    (hf : ¬ fitsSparse p S) (hc : (regs 64 p S).count 0 < cutoff p)
    (hq : rawQ p (hsum 0 (regs 64 p S)) ≤ 5 * 2 ^ p) :
    plusCount ln (Plus.biasOf v) p S =
      sub (rawEstimate p (regs 64 p S)) (Plus.biasOf v p (rawEstimate p (regs 64 p S))) := by
  have hM : Regs p (regs 64 p S) := regs_regs _ (by omega)
  have hr := C73_regime hln h1 h2 S
  rw [if_neg hf, if_neg (by omega)] at hr
  rcases plusRegime_cases v ln h1 h2 S with ⟨_, a, _⟩ | ⟨a, _⟩ | ⟨_, _, ⟨_, _, a⟩ | ⟨_, a, _⟩⟩
  · exact absurd a hf
  · rw [a] at hr
    split at hr <;> omega
  · rw [a, hM.raw_eq h1 h2]
  · exact absurd hq (not_le.2 a)

theorem plus_linear (hln : LnSpec ln) (v : Search) (h1 : 8 ≤ p) (h2 : p ≤ 18) (hδ0 : 0 < δ) (hδ1 : δ ≤ 1)
    (hd : 31 * (4 * 2 ^ p / 5) < 50 * n) (hn : (n : ℝ) + 2 ≤ (1 - δ) * threshold p) :
    fraction (fun h : Fin n → Fin (2 ^ 64) => ¬ plusCount ln (Plus.biasOf v) p (hashSet 64 h) =
        linear ln (2 ^ p) ((regs 64 p (hashSet 64 h)).count 0)) ≤
      2 * Real.exp (-(2 ^ p * δ ^ 2 / 10)) + 2 / 10 ^ 7 := by
  refine le_trans (fraction_mono fun h hh => ?_) ((fraction_or _ _).trans
    (add_le_add (zeros_below h1 h2 hδ0 hδ1 hn) (fraction_fits_le (by omega) h2 hd)))
  by_contra hcon
  rw [not_or, not_lt] at hcon
  exact hh (plusCount_linear hln v (by omega) h2 hcon.2 (by rw [count_zero_regs]; exact hcon.1))

theorem E_45 : 0.1601 ≤ E (9 / 2) := by
  have h1 := (E_bounds (a := 9 * 2 ^ 17) (by norm_num)).1
  have c1 : 1601 * 2 ^ 81 ≤ 10000 * Elo (9 * 2 ^ 17) := by decide +kernel
  have c1' : 1601 * (2 : ℝ) ^ 81 ≤ 10000 * Elo (9 * 2 ^ 17) := by exact_mod_cast c1
  have e1 : ((9 * 2 ^ 17 : ℕ) : ℝ) / 2 ^ 18 = 9 / 2 := by norm_num
  rw [e1] at h1
  refine le_trans ?_ h1
  rw [le_div_iff₀ (by positivity)]
  norm_num at c1' ⊢
  linarith

/-- The centre of the raw estimate against a lower bound of `E`. -/
theorem centre_le_of {l c e : ℝ} (h1 : 8 ≤ p) (h2 : p ≤ 18) (hw : p + 16 ≤ w) (hn6 : n ≤ 6 * 2 ^ p)
    (hn : (n : ℝ) / 2 ^ p ≤ l) (hE : e ≤ E l) (he : 0 < e) (hc : 0.7213 ≤ c * (0.994 * e)) (hc0 : 0 ≤ c) :
    centre w p n ≤ c * 2 ^ p := by
  obtain ⟨b1, -⟩ := moment_half_bounds (w := w) (p := p) (n := n) (by omega) h2 hw hn6
  have hE' := hE.trans (E_anti hn)
  obtain ⟨-, a2⟩ := alpha_near (p := p) (by omega) h2
  have hm := m_ge h1
  have hw1 : 1.5 / (2 : ℝ) ^ p ≤ 1.5 / 256 := by gcongr
  have hw2 : 0 ≤ 1.06 / (2 : ℝ) ^ p := by positivity
  have hM := moment_half_pos (w := w) (p := p) (n := n)
  have b2 : 0.994 * e ≤ moment w p n (1 / 2) := by
    refine le_trans (mul_le_mul ?_ hE' he.le ?_) b1
    · norm_num at hw1 ⊢; linarith
    · norm_num at hw1 ⊢; linarith
  have a3 : (alphaQ p : ℝ) ≤ 0.7213 := by
    generalize 1.06 / (2 : ℝ) ^ p = ω at *
    norm_num at a2 ⊢; linarith
  have hm0 : (0 : ℝ) < 2 ^ p := by positivity
  unfold centre
  rw [div_le_iff₀ hM]
  calc (alphaQ p : ℝ) * 2 ^ p ≤ 0.7213 * 2 ^ p := by gcongr
    _ ≤ c * (0.994 * e) * 2 ^ p := by gcongr
    _ = c * 2 ^ p * (0.994 * e) := by ring
    _ ≤ _ := by gcongr

theorem plus_corrected (hln : LnSpec ln) (v : Search) (h1 : 8 ≤ p) (h2 : p ≤ 18) (hδ0 : 0 < δ) (hδ1 : δ ≤ 1)
    (hn : (1 + δ) * threshold p ≤ (n : ℝ)) (hn' : 2 * n ≤ 9 * 2 ^ p) :
    fraction (fun h : Fin n → Fin (2 ^ 64) => ¬ plusCount ln (Plus.biasOf v) p (hashSet 64 h) =
        sub (rawEstimate p (regs 64 p (hashSet 64 h)))
          (Plus.biasOf v p (rawEstimate p (regs 64 p (hashSet 64 h))))) ≤
      2 * Real.exp (-(2 ^ p * δ ^ 2 / 22)) + 2 * Real.exp (-(2 ^ p / 400)) + 2 / 10 ^ 7 := by
  have hm0 : (0 : ℝ) < 2 ^ p := by positivity
  have hd : 31 * (4 * 2 ^ p / 5) < 50 * n := by
    have ht := (threshold_range8 h1 h2).1
    rw [le_div_iff₀ hm0] at ht
    have h3 : 0.61 * (2 : ℝ) ^ p ≤ n := by nlinarith
    have h4 : 61 * (2 : ℝ) ^ p ≤ 100 * n := by norm_num at h3 ⊢; linarith
    have h5 : 61 * 2 ^ p ≤ 100 * n := by exact_mod_cast h4
    have h6 : 0 < 2 ^ p := by positivity
    omega
  have hc : centre 64 p n ≤ 4.535 * 2 ^ p := by
    refine centre_le_of (l := 9 / 2) h1 h2 (by omega) (by omega) ?_ E_45 (by norm_num) (by norm_num) (by norm_num)
    rw [div_le_iff₀ hm0]
    have : 2 * (n : ℝ) ≤ 9 * 2 ^ p := by exact_mod_cast hn'
    linarith
  have r := raw_tail (n := n) (w := 64) h1 h2 (by omega) le_rfl (by omega) (δ := 1 / 10) (by norm_num) le_rfl
  rw [show -((2 : ℝ) ^ p * (1 / 10) ^ 2 / 4) = -(2 ^ p / 400) by ring] at r
  refine le_trans (fraction_mono fun h hh => ?_) ((fraction_or _ _).trans
    (add_le_add ((fraction_or _ _).trans (add_le_add (zeros_above h1 h2 hδ0 hδ1 hn) r))
      (fraction_fits_le (by omega) h2 hd)))
  by_contra hcon
  rw [not_or, not_or, not_le, not_not] at hcon
  obtain ⟨⟨c1, c2⟩, c3⟩ := hcon
  refine hh (plusCount_corrected hln v (by omega) h2 c3 (by rw [count_zero_regs]; exact c1) ?_)
  have c4 := (abs_le.1 c2).2
  have c5 : (rawQ p (hsum 0 (regs 64 p (hashSet 64 h))) : ℝ) ≤ ((5 * 2 ^ p : ℚ) : ℝ) := by
    push_cast
    generalize (2 : ℝ) ^ p = m at hc hm0 ⊢
    norm_num at hc c4 ⊢
    linarith
  exact_mod_cast c5

theorem plus_raw (hln : LnSpec ln) (v : Search) (h1 : 8 ≤ p) (h2 : p ≤ 18) (hn6 : 6 * 2 ^ p < n)
    (hn : n ≤ 2 ^ 59) :
    fraction (fun h : Fin n → Fin (2 ^ 64) => ¬ plusCount ln (Plus.biasOf v) p (hashSet 64 h) =
        rawEstimate p (regs 64 p (hashSet 64 h))) ≤ 2 * Real.exp (-(2 ^ p / 400)) := by
  have r := raw_tail_high (w := 64) h1 h2 (by omega) le_rfl hn6 (by omega) (δ := 1 / 10) (by norm_num) le_rfl
  rw [show -((2 : ℝ) ^ p * (1 / 10) ^ 2 / 4) = -(2 ^ p / 400) by ring] at r
  refine le_trans (fraction_mono fun h hh => ?_) r
  intro hcon
  refine hh ?_
  have hM : Regs p (regs 64 p (hashSet 64 h)) := regs_regs _ (by omega)
  rw [hM.raw_eq (by omega) h2]
  refine plusCount_raw hln v (by omega) h2 (hashSet_lt h) ?_
  have c1 := (abs_le.1 hcon).1
  have hw : 1.1 / (2 : ℝ) ^ p ≤ 1.1 / 256 := by have := m_ge h1; gcongr
  have h6 : 6 * (2 : ℝ) ^ p < n := by exact_mod_cast hn6
  have h3 : (1 / 10 + 1.1 / 2 ^ p + 0.001) * (n : ℝ) ≤ 0.106 * n := by
    refine mul_le_mul_of_nonneg_right ?_ (Nat.cast_nonneg n)
    generalize 1.1 / (2 : ℝ) ^ p = ω at *
    norm_num at hw ⊢; linarith
  have c5 : ((5 * 2 ^ p : ℚ) : ℝ) < (rawQ p (hsum 0 (regs 64 p (hashSet 64 h))) : ℝ) := by
    push_cast
    generalize (1 / 10 + 1.1 / 2 ^ p + 0.001) * (n : ℝ) = X at *
    generalize (rawQ p (hsum 0 (regs 64 p (hashSet 64 h))) : ℝ) = R at *
    norm_num at *
    linarith
  exact_mod_cast c5

/-- The raw estimate is between half and twice its centre. -/
theorem raw_within (h1 : 8 ≤ p) (h2 : p ≤ 18) (hp : w - p < 63) (h : Fin n → Fin (2 ^ 64)) :
    (¬ 2 * (2 ^ p * moment w p n (1 / 2)) ≤ harm w p h →
      0.4999 * centre w p n ≤ (rawQ p (hsum 0 (regs w p (hashSet w h))) : ℝ)) ∧
    (¬ harm w p h ≤ 1 / 2 * (2 ^ p * moment w p n (1 / 2)) →
      (rawQ p (hsum 0 (regs w p (hashSet w h))) : ℝ) ≤ 2.0001 * centre w p n) := by
  have hM : Regs p (regs w p (hashSet w h)) := regs_regs _ hp
  obtain ⟨hH, hr⟩ := raw_rel (by omega) h2 hM
  have hH' : 0 < harm w p h := by
    rw [← harm_eq]; exact_mod_cast hH
  have hr' : |(rawQ p (hsum 0 (regs w p (hashSet w h))) : ℝ) - alphaQ p * (2 ^ p * 2 ^ p) / harm w p h| ≤
      alphaQ p * (2 ^ p * 2 ^ p) / harm w p h / 2 ^ 32 := by
    rw [← harm_eq]; exact_mod_cast hr
  have hc := centre_pos (w := w) (n := n) (p := p) (by omega) h2
  have he := moment_half_pos (w := w) (p := p) (n := n)
  have hm0 : (0 : ℝ) < 2 ^ p := by positivity
  have e : (alphaQ p : ℝ) * (2 ^ p * 2 ^ p) = centre w p n * (2 ^ p * moment w p n (1 / 2)) := by
    unfold centre; field_simp
  rw [e] at hr'
  generalize centre w p n = C at *
  generalize (rawQ p (hsum 0 (regs w p (hashSet w h))) : ℝ) = R at *
  have hM0 : 0 < 2 ^ p * moment w p n (1 / 2) := by positivity
  generalize 2 ^ p * moment w p n (1 / 2) = M at *
  generalize harm w p h = H at *
  obtain ⟨q1, q2⟩ := abs_le.1 hr'
  constructor
  · intro h3
    rw [not_le] at h3
    have h4 : 1 / 2 * C ≤ C * M / H := by rw [le_div_iff₀ hH']; nlinarith
    generalize C * M / H = X at *
    norm_num at *
    linarith
  · intro h3
    rw [not_le] at h3
    have h4 : C * M / H ≤ 2 * C := by rw [div_le_iff₀ hH']; nlinarith
    generalize C * M / H = X at *
    norm_num at *
    linarith

theorem centre_ge_high (h1 : 8 ≤ p) (h2 : p ≤ 18) (hpw : p ≤ w) (h5 : 5 * 2 ^ p ≤ n)
    (hn : 60 * n ≤ 2 ^ (w + 1)) : 0.995 * (n : ℝ) ≤ centre w p n := by
  obtain ⟨c1, -, -⟩ := centre_near (w := w) (by omega) h2 hpw h5 hn
  refine le_trans (mul_le_mul_of_nonneg_right ?_ (Nat.cast_nonneg n)) c1
  have hw : 1.1 / (2 : ℝ) ^ p ≤ 1.1 / 256 := by have := m_ge h1; gcongr
  generalize 1.1 / (2 : ℝ) ^ p = ω at *
  norm_num at hw ⊢; linarith

theorem plus_raw_far (hln : LnSpec ln) (v : Search) (h1 : 8 ≤ p) (h2 : p ≤ 18) (hn6 : 11 * 2 ^ p ≤ n)
    (hn : n ≤ 2 ^ 59) :
    fraction (fun h : Fin n → Fin (2 ^ 64) => ¬ plusCount ln (Plus.biasOf v) p (hashSet 64 h) =
        rawEstimate p (regs 64 p (hashSet 64 h))) ≤ Real.exp (-(0.06 * 2 ^ p)) := by
  refine le_trans (fraction_mono fun h hh => ?_)
    (harm_double (loaded_high (w := 64) (n := n) h1 h2 (by omega) le_rfl (by omega) (by omega)) (by omega) le_rfl)
  by_contra hcon
  refine hh ?_
  have hM : Regs p (regs 64 p (hashSet 64 h)) := regs_regs _ (by omega)
  rw [hM.raw_eq (by omega) h2]
  refine plusCount_raw hln v (by omega) h2 (hashSet_lt h) ?_
  have c1 := (raw_within h1 h2 (by omega) h).1 hcon
  have c2 := centre_ge_high (w := 64) (n := n) h1 h2 (by omega) (by omega) (by omega)
  have h6 : 11 * (2 : ℝ) ^ p ≤ n := by exact_mod_cast hn6
  have hm0 : (0 : ℝ) < 2 ^ p := by positivity
  have c5 : ((5 * 2 ^ p : ℚ) : ℝ) < (rawQ p (hsum 0 (regs 64 p (hashSet 64 h))) : ℝ) := by
    push_cast
    generalize (2 : ℝ) ^ p = m at h6 hm0 ⊢
    norm_num at c1 c2 ⊢
    linarith
  exact_mod_cast c5

theorem pf_raw (h1 : 8 ≤ p) (h2 : p ≤ 16) (hn6 : 6 * 2 ^ p < n) (hn : n ≤ 7 * 10 ^ 7) :
    fraction (fun h : Fin n → Fin (2 ^ 64) => ¬ pfCount ln p (hashSet 32 h) =
        rawEstimate p (regs 32 p (hashSet 32 h))) ≤
      Real.exp (-(0.06 * 2 ^ p)) + Real.exp (-(0.078 * 2 ^ p)) := by
  have hl := loaded_high (w := 32) (n := n) h1 (by omega) (by omega) (by norm_num) (by omega) (by omega)
  refine le_trans (fraction_mono fun h hh => ?_) ((fraction_or _ _).trans
    (add_le_add (harm_double hl (by omega) (by norm_num)) (harm_half hl.var (by omega) (by norm_num))))
  by_contra hcon
  rw [not_or] at hcon
  refine hh ?_
  have hM : Regs p (regs 32 p (hashSet 32 h)) := regs_regs _ (by omega)
  rw [hM.raw_eq (by omega) (by omega)]
  have c1 := (raw_within h1 (by omega) (by omega) h).1 hcon.1
  have c3 := (raw_within h1 (by omega) (by omega) h).2 hcon.2
  have c2 := centre_ge_high (w := 32) (n := n) h1 (by omega) (by omega) (by omega) (by omega)
  obtain ⟨-, c4, -⟩ := centre_near (w := 32) (p := p) (n := n) (by omega) (by omega) (by omega) (by omega) (by omega)
  have h6 : 6 * (2 : ℝ) ^ p < n := by exact_mod_cast hn6
  have h7 : (n : ℝ) ≤ 70000000 := by exact_mod_cast hn
  have hm0 : (0 : ℝ) < 2 ^ p := by positivity
  clear hh hcon
  refine pfCount_raw (by omega) h2 ?_ ?_
  · have c5 : ((5 / 2 * 2 ^ p : ℚ) : ℝ) < (rawQ p (hsum 0 (regs 32 p (hashSet 32 h))) : ℝ) := by
      push_cast
      norm_num at c1 c2 ⊢
      linarith
    exact_mod_cast c5
  · have c5 : (rawQ p (hsum 0 (regs 32 p (hashSet 32 h))) : ℝ) ≤ ((2 ^ 32 / 30 : ℚ) : ℝ) := by
      push_cast
      norm_num at c3 c4 ⊢
      linarith
    exact_mod_cast c5

theorem pf_linear (h1 : 8 ≤ p) (h2 : p ≤ 16) (hn : n ≤ 2 * 2 ^ p) :
    fraction (fun h : Fin n → Fin (2 ^ 64) => ¬ pfCount ln p (hashSet 32 h) =
        linear ln (2 ^ p) ((regs 32 p (hashSet 32 h)).count 0)) ≤
      2 * Real.exp (-(2 ^ p / 400)) + 2 * Real.exp (-(2 ^ p / 30)) := by
  have hm0 : (0 : ℝ) < 2 ^ p := by positivity
  have hc : centre 32 p n ≤ 2.26 * 2 ^ p := by
    refine centre_le_of (l := 137 / 64) h1 (by omega) (by omega) (by omega) ?_ E_consts.1 (by norm_num) (by norm_num)
      (by norm_num)
    rw [div_le_iff₀ hm0]
    have : (n : ℝ) ≤ 2 * 2 ^ p := by exact_mod_cast hn
    linarith
  have r := raw_tail (n := n) (w := 32) h1 (by omega) (by omega) (by norm_num) (by omega) (δ := 1 / 10)
    (by norm_num) le_rfl
  rw [show -((2 : ℝ) ^ p * (1 / 10) ^ 2 / 4) = -(2 ^ p / 400) by ring] at r
  refine le_trans (fraction_mono fun h hh => ?_) ((fraction_or _ _).trans
    (add_le_add r (zeros_pos (w := 32) h1 (by omega) (by norm_num) hn)))
  by_contra hcon
  rw [not_or, not_not] at hcon
  obtain ⟨c2, c3⟩ := hcon
  have c4 := (abs_le.1 c2).2
  have c5 : (rawQ p (hsum 0 (regs 32 p (hashSet 32 h))) : ℝ) ≤ ((5 / 2 * 2 ^ p : ℚ) : ℝ) := by
    push_cast
    generalize (2 : ℝ) ^ p = m at hc hm0 ⊢
    norm_num at hc c4 ⊢
    linarith
  have c6 : rawQ p (hsum 0 (regs 32 p (hashSet 32 h))) ≤ 5 / 2 * 2 ^ p := by exact_mod_cast c5
  rcases pfRegime_cases ln (by omega : 4 ≤ p) h2 (hashSet 32 h) with ⟨_, _, _, a⟩ | ⟨a, _⟩
  · exact hh a
  · exact a ⟨c6, by rw [count_zero_regs]; exact c3⟩

variable {N i : Nat} {ops : List (Op (Fin N))} {V : Finset (Fin N)}

/-- From one sketch to programs. -/
theorem plus_program (c : Serde.Codec (Fin N)) (hs : ∀ h, Supported cfg c (ops.map (withHashes h)))
    (hV : (received 18 ops)[i]? = some (p, V)) (F : Finset Nat → F64) {ε : ℝ}
    (key : fraction (fun h : Fin V.card → Fin (2 ^ 64) =>
      ¬ plusCount ln (Plus.biasOf cfg.search) p (hashSet 64 h) = F (hashSet 64 h)) ≤ ε) :
    fraction (fun h : Fin N → Fin (2 ^ 64) =>
      ¬ later (Plus.api cfg ln c) ords (ops.map (withHashes h)) [.count i] =
        .ok [.count (F (V.image fun v => (h v : Nat) % 2 ^ 64))]) ≤ ε := by
  rw [← fraction_restrict V 64 fun S => ¬ plusCount ln (Plus.biasOf cfg.search) p S = F S] at key
  refine le_trans (fraction_mono fun h hh => ?_) key
  intro e
  refine hh ?_
  have hc : (contents 64 18 (ops.map (withHashes h)))[i]? = some (meaning 64 h (p, V)) := by
    rw [contents_meaning, List.getElem?_map, hV]; rfl
  rw [plus_count_val (hs h) hc]
  simp only [meaning]
  rw [e]

theorem pf_program (c : Serde.Codec (Fin N)) (hs : ∀ h, Supported cfg c (ops.map (withHashes h)))
    (hV : (received 16 ops)[i]? = some (p, V)) (F : Finset Nat → F64) {ε : ℝ}
    (key : fraction (fun h : Fin V.card → Fin (2 ^ 64) => ¬ pfCount ln p (hashSet 32 h) = F (hashSet 32 h)) ≤ ε) :
    fraction (fun h : Fin N → Fin (2 ^ 64) =>
      ¬ later (PF.api cfg ln c) ords (ops.map (withHashes h)) [.count i] =
        .ok [.count (F (V.image fun v => (h v : Nat) % 2 ^ 32))]) ≤ ε := by
  rw [← fraction_restrict V 32 fun S => ¬ pfCount ln p S = F S] at key
  refine le_trans (fraction_mono fun h hh => ?_) key
  intro e
  refine hh ?_
  have hc : (contents 32 16 (ops.map (withHashes h)))[i]? = some (meaning 32 h (p, V)) := by
    rw [contents_meaning, List.getElem?_map, hV]; rfl
  rw [pf_count_val (hs h) hc]
  simp only [meaning]
  rw [e]

/-- **C82**, linear counting.  Run any program, with random hashes; let sketch `i` be a `HyperLogLogPlus` of
precision `p ≥ 8` that received exactly the `n` values `V`.  If `n` is more than `0.62 · (4 · 2^p / 5)` and at most
`(1 - δ) T - 2`, where `T` is the threshold of the precision, then `count` returns linear counting on the
registers, except with probability `2 exp(-m δ²/10) + 2 · 10^-7`. -/
theorem C82_plus_linear (hln : LnSpec ln) (c : Serde.Codec (Fin N))
    (hs : ∀ h, Supported cfg c (ops.map (withHashes h))) (hV : (received 18 ops)[i]? = some (p, V)) (h1 : 8 ≤ p)
    (hδ0 : 0 < δ) (hδ1 : δ ≤ 1) (hd : 31 * (4 * 2 ^ p / 5) < 50 * V.card)
    (hn : (V.card : ℝ) + 2 ≤ (1 - δ) * threshold p) :
    fraction (fun h : Fin N → Fin (2 ^ 64) =>
      ¬ later (Plus.api cfg ln c) ords (ops.map (withHashes h)) [.count i] =
        .ok [.count (linear ln (2 ^ p) ((regs 64 p (V.image fun v => (h v : Nat) % 2 ^ 64)).count 0))]) ≤
      2 * Real.exp (-(2 ^ p * δ ^ 2 / 10)) + 2 / 10 ^ 7 :=
  plus_program c hs hV (fun S => linear ln (2 ^ p) ((regs 64 p S).count 0))
    (plus_linear hln cfg.search h1 (received_le hV) hδ0 hδ1 hd hn)

/-- **C82**, bias correction.  If `(1 + δ) T ≤ n ≤ 4.5 m` then `count` returns the raw estimate minus its bias,
except with probability `2 exp(-m δ²/22) + 2 exp(-m/400) + 2 · 10^-7`. -/
theorem C82_plus_corrected (hln : LnSpec ln) (c : Serde.Codec (Fin N))
    (hs : ∀ h, Supported cfg c (ops.map (withHashes h))) (hV : (received 18 ops)[i]? = some (p, V)) (h1 : 8 ≤ p)
    (hδ0 : 0 < δ) (hδ1 : δ ≤ 1) (hn : (1 + δ) * threshold p ≤ (V.card : ℝ)) (hn' : 2 * V.card ≤ 9 * 2 ^ p) :
    fraction (fun h : Fin N → Fin (2 ^ 64) =>
      ¬ later (Plus.api cfg ln c) ords (ops.map (withHashes h)) [.count i] =
        .ok [.count (sub (rawEstimate p (regs 64 p (V.image fun v => (h v : Nat) % 2 ^ 64)))
          (Plus.biasOf cfg.search p (rawEstimate p (regs 64 p (V.image fun v => (h v : Nat) % 2 ^ 64)))))]) ≤
      2 * Real.exp (-(2 ^ p * δ ^ 2 / 22)) + 2 * Real.exp (-(2 ^ p / 400)) + 2 / 10 ^ 7 :=
  plus_program c hs hV (fun S => sub (rawEstimate p (regs 64 p S)) (Plus.biasOf cfg.search p (rawEstimate p (regs 64 p S))))
    (plus_corrected hln cfg.search h1 (received_le hV) hδ0 hδ1 hn hn')

/-- **C82**, raw estimate.  If `6 m < n ≤ 2^59` then `count` returns the raw estimate, except with probability
`2 exp(-m/400)`; and if `11 m ≤ n` except with probability `exp(-0.06 m)`. -/
theorem C82_plus_raw (hln : LnSpec ln) (c : Serde.Codec (Fin N))
    (hs : ∀ h, Supported cfg c (ops.map (withHashes h))) (hV : (received 18 ops)[i]? = some (p, V)) (h1 : 8 ≤ p)
    (hn6 : 6 * 2 ^ p < V.card) (hn : V.card ≤ 2 ^ 59) :
    fraction (fun h : Fin N → Fin (2 ^ 64) =>
      ¬ later (Plus.api cfg ln c) ords (ops.map (withHashes h)) [.count i] =
        .ok [.count (rawEstimate p (regs 64 p (V.image fun v => (h v : Nat) % 2 ^ 64)))]) ≤
      if 11 * 2 ^ p ≤ V.card then min (2 * Real.exp (-(2 ^ p / 400))) (Real.exp (-(0.06 * 2 ^ p)))
      else 2 * Real.exp (-(2 ^ p / 400)) := by
  refine plus_program c hs hV (fun S => rawEstimate p (regs 64 p S)) ?_
  have k := plus_raw hln cfg.search h1 (received_le hV) hn6 hn
  split_ifs with h11
  · exact le_min k (plus_raw_far hln cfg.search h1 (received_le hV) h11 hn)
  · exact k

/-- **C82** for `HyperLogLogPF`, linear counting: for at most `2 m` values. -/
theorem C82_pf_linear (c : Serde.Codec (Fin N))
    (hs : ∀ h, Supported cfg c (ops.map (withHashes h))) (hV : (received 16 ops)[i]? = some (p, V)) (h1 : 8 ≤ p)
    (hn : V.card ≤ 2 * 2 ^ p) :
    fraction (fun h : Fin N → Fin (2 ^ 64) =>
      ¬ later (PF.api cfg ln c) ords (ops.map (withHashes h)) [.count i] =
        .ok [.count (linear ln (2 ^ p) ((regs 32 p (V.image fun v => (h v : Nat) % 2 ^ 32)).count 0))]) ≤
      2 * Real.exp (-(2 ^ p / 400)) + 2 * Real.exp (-(2 ^ p / 30)) :=
  pf_program c hs hV (fun S => linear ln (2 ^ p) ((regs 32 p S).count 0)) (pf_linear h1 (received_le hV) hn)

/-- **C82** for `HyperLogLogPF`, raw estimate: for more than `6 m` and at most `7 · 10^7` values. -/
theorem C82_pf_raw (c : Serde.Codec (Fin N))
    (hs : ∀ h, Supported cfg c (ops.map (withHashes h))) (hV : (received 16 ops)[i]? = some (p, V)) (h1 : 8 ≤ p)
    (hn6 : 6 * 2 ^ p < V.card) (hn : V.card ≤ 7 * 10 ^ 7) :
    fraction (fun h : Fin N → Fin (2 ^ 64) =>
      ¬ later (PF.api cfg ln c) ords (ops.map (withHashes h)) [.count i] =
        .ok [.count (rawEstimate p (regs 32 p (V.image fun v => (h v : Nat) % 2 ^ 32)))]) ≤
      Real.exp (-(0.06 * 2 ^ p)) + Real.exp (-(0.078 * 2 ^ p)) :=
  pf_program c hs hV (fun S => rawEstimate p (regs 32 p S)) (pf_raw h1 (received_le hV) hn6 hn)

/-! ## The benchmarks of `count` -/

/-- The calls of one benchmark of `count` (benchmarks/benches/hyperloglog.rs:51-70; with `k = 0` the
body of the benchmarks of `insert`, lines 24-40): create a sketch, insert `n`
strings, call `count` `k` times.  The strings are random; the model takes them to be distinct, and the builder
`RandomState` to give random hashes. -/
def benchCount (p n k : Nat) : List (Op (Fin n)) :=
  .new p (fun _ => 0) :: (List.finRange n).map (.insert .insert 0) ++ List.replicate k (.count 0)

theorem received_benchCount {maxP : Nat} (k : Nat) (h4 : 4 ≤ p) (hp : p ≤ maxP) :
    (received maxP (benchCount p n k))[0]? = some (p, Finset.univ) := by
  have hk : ∀ st : List (Nat × Finset (Fin n)),
      (List.replicate k (Op.count 0)).foldl (receive maxP) st = st := by
    intro st
    induction k with
    | zero => rfl
    | succ k ih => rw [List.replicate_succ, List.foldl_cons]; exact ih
  unfold received benchCount
  rw [List.foldl_append, hk, List.foldl_cons,
    show receive maxP [] (Op.new p fun _ => 0) = [(p, (∅ : Finset (Fin n)))] by simp [receive, h4, hp],
    receive_inserts (i := 0) maxP .insert _ [(p, ∅)] (p, ∅) rfl]
  simp only [List.set_cons_zero, List.getElem?_cons_zero, Option.some.injEq, Prod.mk.injEq, true_and]
  ext v
  simp

theorem benchCount_reload (k : Nat) (h : Fin n → Fin (2 ^ 64)) (i : Nat) :
    Op.reload i ∉ (benchCount p n k).map (withHashes h) := by
  simp [benchCount, withHashes, List.map_replicate]

/-- **C82** for the benchmarks named `below_thres` with 10 000 strings at precision 14 and 49 000 at precision 16
(lines 89-94, 102-107): `count` uses linear counting on the registers, except with probability `10^-6` and
0.5 %. -/
theorem C82_below (hln : LnSpec ln) (hb : cfg.usizeBits = 64) (k : Nat) :
    fraction (fun h : Fin 10000 → Fin (2 ^ 64) =>
      ¬ later (Plus.api cfg ln (noCodec _)) ords ((benchCount 14 10000 k).map (withHashes h)) [.count 0] =
        .ok [.count (linear ln (2 ^ 14) ((regs 64 14 (Finset.univ.image fun v => (h v : Nat) % 2 ^ 64)).count 0))]) ≤
      1 / 10 ^ 6 ∧
    fraction (fun h : Fin 49000 → Fin (2 ^ 64) =>
      ¬ later (Plus.api cfg ln (noCodec _)) ords ((benchCount 16 49000 k).map (withHashes h)) [.count 0] =
        .ok [.count (linear ln (2 ^ 16) ((regs 64 16 (Finset.univ.image fun v => (h v : Nat) % 2 ^ 64)).count 0))]) ≤
      0.005 := by
  constructor
  · refine (C82_plus_linear (δ := 0.13) hln (noCodec _) (fun h => supported64 hb _ (benchCount_reload k h))
      (received_benchCount k (by norm_num) (by norm_num)) (by norm_num) (by norm_num) (by norm_num)
      (by rw [Finset.card_univ, Fintype.card_fin]; norm_num)
      (by rw [Finset.card_univ, Fintype.card_fin, show threshold 14 = 11500 from rfl]; norm_num)).trans ?_
    have := exp_neg_le (x := 2 ^ 14 * 0.13 ^ 2 / 10) (k := 20) (by norm_num)
    norm_num at this ⊢
    linarith
  · refine plus_program (noCodec _) (fun h => supported64 hb _ (benchCount_reload k h))
      (received_benchCount k (by norm_num) (by norm_num))
      (fun S => linear ln (2 ^ 16) ((regs 64 16 S).count 0)) ?_
    have hc : (Finset.univ : Finset (Fin 49000)).card = 49000 := by rw [Finset.card_univ, Fintype.card_fin]
    rw [hc]
    have k1 := zeros_below_16 (n := 49000) (δ := 0.0199) (by norm_num) (by norm_num) (by norm_num)
    have k2 := fraction_fits_le (p := 16) (n := 49000) (by norm_num) (by norm_num) (by norm_num)
    refine le_trans (fraction_mono fun h hh => ?_) ((fraction_or _ _).trans ((add_le_add k1 k2).trans ?_))
    · by_contra hcon
      rw [not_or, not_lt] at hcon
      exact hh (plusCount_linear hln cfg.search (by norm_num) (by norm_num) hcon.2
        (by rw [count_zero_regs]; exact hcon.1))
    · have h5 : Real.exp (-(2 ^ 16 * 0.0199 ^ 2 * 0.243)) ≤ Real.exp (-1) ^ 6 := by
        rw [← Real.exp_nat_mul]
        exact Real.exp_le_exp.2 (by norm_num)
      have h6 : Real.exp (-1) ≤ 0.3679 := by
        rw [Real.exp_neg, inv_le_comm₀ (Real.exp_pos 1) (by norm_num)]
        have := Real.exp_one_gt_d9
        norm_num at this ⊢; linarith
      have h7 : Real.exp (-1) ^ 6 ≤ 0.3679 ^ 6 := by gcongr
      have h8 := h5.trans h7
      norm_num at h8 ⊢
      linarith

/-- **C82** for the benchmarks named `above_thres` (lines 82-87, 95-100, 108-113): 20 000 strings at precision 8,
100 000 at precision 14 and 5 000 000 at precision 16.  `count` returns the raw estimate, without bias correction,
except with probability `2 · 10^-6`. -/
theorem C82_above (hln : LnSpec ln) (hb : cfg.usizeBits = 64) (k : Nat)
    (hp : (p, n) ∈ [(8, 20000), (14, 100000), (16, 5000000)]) :
    fraction (fun h : Fin n → Fin (2 ^ 64) =>
      ¬ later (Plus.api cfg ln (noCodec _)) ords ((benchCount p n k).map (withHashes h)) [.count 0] =
        .ok [.count (rawEstimate p (regs 64 p (Finset.univ.image fun v => (h v : Nat) % 2 ^ 64)))]) ≤
      2 / 10 ^ 6 := by
  have h8 : 8 ≤ p ∧ p ≤ 18 ∧ 6 * 2 ^ p < n ∧ n ≤ 2 ^ 59 := by
    simp only [List.mem_cons, Prod.mk.injEq, List.not_mem_nil, or_false] at hp
    rcases hp with ⟨rfl, rfl⟩ | ⟨rfl, rfl⟩ | ⟨rfl, rfl⟩ <;> norm_num
  have hc : (Finset.univ : Finset (Fin n)).card = n := by rw [Finset.card_univ, Fintype.card_fin]
  refine (C82_plus_raw hln (noCodec _) (fun h => supported64 hb _ (benchCount_reload k h))
    (received_benchCount k (by omega) h8.2.1) h8.1 (by rw [hc]; exact h8.2.2.1) (by rw [hc]; exact h8.2.2.2)).trans ?_
  rw [hc]
  simp only [List.mem_cons, Prod.mk.injEq, List.not_mem_nil, or_false] at hp
  rcases hp with ⟨rfl, rfl⟩ | ⟨rfl, rfl⟩ | ⟨rfl, rfl⟩
  · rw [if_pos (by norm_num)]
    refine (min_le_right _ _).trans ?_
    have := exp_neg_le (x := 0.06 * 2 ^ 8) (k := 15) (by norm_num)
    norm_num at this ⊢
    linarith
  · rw [if_neg (by norm_num)]
    have := exp_neg_le (x := 2 ^ 14 / 400) (k := 20) (by norm_num)
    norm_num at this ⊢
    linarith
  · rw [if_pos (by norm_num)]
    refine (min_le_left _ _).trans ?_
    have := exp_neg_le (x := 2 ^ 16 / 400) (k := 20) (by norm_num)
    norm_num at this ⊢
    linarith

/-- **C82** for the benchmarks of `HyperLogLogPF` (lines 72-74): `count` returns the raw estimate except with
probability `2 · 10^-6`. -/
theorem C82_pf_benchmarks (hb : cfg.usizeBits = 64) (k : Nat)
    (hp : (p, n) ∈ [(8, 20000), (14, 100000), (16, 5000000)]) :
    fraction (fun h : Fin n → Fin (2 ^ 64) =>
      ¬ later (PF.api cfg ln (noCodec _)) ords ((benchCount p n k).map (withHashes h)) [.count 0] =
        .ok [.count (rawEstimate p (regs 32 p (Finset.univ.image fun v => (h v : Nat) % 2 ^ 32)))]) ≤
      2 / 10 ^ 6 := by
  have h8 : 8 ≤ p ∧ p ≤ 16 ∧ 6 * 2 ^ p < n ∧ n ≤ 7 * 10 ^ 7 := by
    simp only [List.mem_cons, Prod.mk.injEq, List.not_mem_nil, or_false] at hp
    rcases hp with ⟨rfl, rfl⟩ | ⟨rfl, rfl⟩ | ⟨rfl, rfl⟩ <;> norm_num
  have hc : (Finset.univ : Finset (Fin n)).card = n := by rw [Finset.card_univ, Fintype.card_fin]
  refine (C82_pf_raw (noCodec _) (fun h => supported64 hb _ (benchCount_reload k h))
    (received_benchCount k (by omega) h8.2.1) h8.1 (by rw [hc]; exact h8.2.2.1) (by rw [hc]; exact h8.2.2.2)).trans ?_
  have hm := m_ge h8.1
  have k1 := exp_neg_le (x := 0.06 * 2 ^ p) (k := 15) (by norm_num; linarith)
  have k2 := exp_neg_le (x := 0.078 * 2 ^ p) (k := 18) (by norm_num; linarith)
  norm_num at k1 k2 ⊢
  linarith

/-- **C82** for the benchmarks of `insert` (lines 24-49), which insert 2000 strings: with precision 14 and 16 the
sketch is still sparse at the end, with precision 8 it is dense, except with probability `2 · 10^-7`. -/
theorem C82_insert_benchmarks (hb : cfg.usizeBits = 64) (hp : p ∈ [8, 14, 16]) :
    fraction (fun h : Fin 2000 → Fin (2 ^ 64) => ¬ ∃ s a,
      ReachPlus cfg ln (noCodec _) ords ((benchCount p 2000 0).map (withHashes h)) 0 s a ∧
        s.isSparse = decide (p ≠ 8)) ≤ 2 / 10 ^ 7 := by
  simp only [List.mem_cons, List.not_mem_nil, or_false] at hp
  have hc : (Finset.univ : Finset (Fin 2000)).card = 2000 := by rw [Finset.card_univ, Fintype.card_fin]
  rcases hp with rfl | rfl | rfl
  · exact C80_dense (noCodec _) (fun h => supported64 hb _ (benchCount_reload 0 h))
      (received_benchCount 0 (by norm_num) (by norm_num)) (by norm_num) (by rw [hc]; norm_num)
  · exact (C80_sparse (noCodec _) (fun h => supported64 hb _ (benchCount_reload 0 h))
      (received_benchCount 0 (by norm_num) (by norm_num)) (by rw [hc]; norm_num)).trans (by norm_num)
  · exact (C80_sparse (noCodec _) (fun h => supported64 hb _ (benchCount_reload 0 h))
      (received_benchCount 0 (by norm_num) (by norm_num)) (by rw [hc]; norm_num)).trans (by norm_num)

/-- Instances of the other two theorems: with `2^14` registers and `60000` values (`3.66 m`, the threshold is
11500) `count` subtracts the bias, and for `HyperLogLogPF` with `30000` values it uses linear counting. -/
example (hln : LnSpec ln) :
    fraction (fun h : Fin (3 * 20000) → Fin (2 ^ 64) =>
      ¬ later (Plus.api Cfg.debug64 ln (noCodec _)) ords ((twoSites 20000).map (withHashes h)) [.count 0] =
        .ok [.count (sub (rawEstimate 14 (regs 64 14 (Finset.univ.image fun v => (h v : Nat) % 2 ^ 64)))
          (Plus.biasOf Cfg.debug64.search 14
            (rawEstimate 14 (regs 64 14 (Finset.univ.image fun v => (h v : Nat) % 2 ^ 64)))))]) ≤ 1 / 10 ^ 6 ∧
    fraction (fun h : Fin (3 * 10000) → Fin (2 ^ 64) =>
      ¬ later (PF.api Cfg.debug64 ln (noCodec _)) ords ((twoSites 10000).map (withHashes h)) [.count 0] =
        .ok [.count (linear ln (2 ^ 14)
          ((regs 32 14 (Finset.univ.image fun v => (h v : Nat) % 2 ^ 32)).count 0))]) ≤ 1 / 10 ^ 6 := by
  have k := exp_neg_le (x := 2 ^ 14 / 400) (k := 20) (by norm_num)
  constructor
  · refine (C82_plus_corrected (δ := 1) hln (noCodec _) (fun h => supported64 rfl _ (twoSites_reload 20000 h))
      (received_twoSites 20000 (by norm_num)) (by norm_num) (by norm_num) le_rfl
      (by rw [Finset.card_univ, Fintype.card_fin, show threshold 14 = 11500 from rfl]; norm_num)
      (by rw [Finset.card_univ, Fintype.card_fin]; norm_num)).trans ?_
    have k2 := exp_neg_le (x := 2 ^ 14 * 1 ^ 2 / 22) (k := 20) (by norm_num)
    norm_num at k k2 ⊢
    linarith
  · refine (C82_pf_linear (noCodec _) (fun h => supported64 rfl _ (twoSites_reload 10000 h))
      (received_twoSites 10000 (by norm_num)) (by norm_num)
      (by rw [Finset.card_univ, Fintype.card_fin]; norm_num)).trans ?_
    have k2 := exp_neg_le (x := 2 ^ 14 / 30) (k := 20) (by norm_num)
    norm_num at k k2 ⊢
    linarith

end HLL
