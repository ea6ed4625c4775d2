import Verif.Proofs.Count
import Verif.Proofs.Approx
import Verif.Proofs.SpecLemmas
import Mathlib.Algebra.BigOperators.Group.List.Basic
import Mathlib.Algebra.Order.BigOperators.Group.List
import Mathlib.Tactic.Linarith

/-! # The harmonic sum and the raw estimate in floating point -/

namespace HLL.Spec
open F64

/-- The exact harmonic sum. -/
def hexact (M : List Nat) : ℚ := (M.map fun r => (1 : ℚ) / 2 ^ r).sum

/-- The values computed by the floating point summation starting at `a`. -/
def hsum (a : ℚ) : List Nat → ℚ
  | [] => a
  | r :: M => hsum (rnd (a + 1 / 2 ^ r)) M

theorem term_pos (r : Nat) : (0 : ℚ) < 1 / 2 ^ r := by positivity
theorem term_le_one (r : Nat) : (1 : ℚ) / 2 ^ r ≤ 1 := by
  rw [div_le_one (by positivity)]; exact one_le_pow₀ (by norm_num)

theorem hexact_nonneg (M : List Nat) : 0 ≤ hexact M := by
  apply List.sum_nonneg
  intro x hx
  obtain ⟨r, _, rfl⟩ := List.mem_map.1 hx
  exact (term_pos r).le

theorem hexact_cons (r : Nat) (M : List Nat) : hexact (r :: M) = 1 / 2 ^ r + hexact M := by
  simp [hexact]

theorem step_bound {a : ℚ} {k : ℕ} (h0 : 0 ≤ a) (hk : a ≤ k) (h53 : k + 1 ≤ 2 ^ 53) (r : Nat) :
    0 ≤ rnd (a + 1 / 2 ^ r) ∧ rnd (a + 1 / 2 ^ r) ≤ ((k + 1 : ℕ) : ℚ) := by
  have ht := term_pos r
  have ht1 := term_le_one r
  refine ⟨rnd_nonneg (by linarith), ?_⟩
  apply rnd_le_of_le (rnd_natCast h53)
  push_cast
  linarith

theorem foldl_add_eq : ∀ (M : List Nat) (a : ℚ) (k : ℕ), 0 ≤ a → a ≤ k → k + M.length ≤ 2 ^ 53 →
    (M.map fun r => fin (1 / 2 ^ r)).foldl add (fin a) = fin (hsum a M) ∧
      0 ≤ hsum a M ∧ hsum a M ≤ ((k + M.length : ℕ) : ℚ)
  | [], a, k, h0, hk, _ => ⟨rfl, h0, by simpa [hsum] using hk⟩
  | r :: M, a, k, h0, hk, h53 => by
    rw [List.length_cons] at h53
    have ht := term_pos r
    have ht1 := term_le_one r
    obtain ⟨e1, e2⟩ := step_bound h0 hk (by omega) r
    obtain ⟨e3, e4, e5⟩ := foldl_add_eq M _ (k + 1) e1 e2 (by omega)
    have hb : |a + 1 / 2 ^ r| ≤ 2 ^ 1023 := by
      rw [abs_of_nonneg (by linarith)]
      have h1 : ((k + 1 : ℕ) : ℚ) ≤ 2 ^ 53 := by
        have : k + 1 ≤ 2 ^ 53 := by omega
        exact_mod_cast this
      have h2 : (2 : ℚ) ^ 53 ≤ 2 ^ 1023 := pow_le_pow_right₀ (by norm_num) (by norm_num)
      push_cast at h1
      refine le_trans ?_ h2
      linarith
    refine ⟨?_, e4, ?_⟩
    · rw [List.map_cons, List.foldl_cons, add_fin_of hb]; exact e3
    · refine le_trans e5 (le_of_eq ?_)
      rw [List.length_cons]; push_cast; ring

theorem harmonic_eq {M : List Nat} (h : M.length ≤ 2 ^ 53) :
    harmonic M = fin (hsum 0 M) ∧ 0 ≤ hsum 0 M ∧ hsum 0 M ≤ (M.length : ℚ) := by
  have := foldl_add_eq M 0 0 le_rfl (by simp) (by omega)
  simpa [harmonic, num] using this

theorem hsum_mono : ∀ {M N : List Nat} {a b : ℚ}, a ≤ b → List.Forall₂ (fun r r' => r' ≤ r) M N →
    hsum a M ≤ hsum b N
  | [], [], a, b, hab, _ => hab
  | r :: M, r' :: N, a, b, hab, h => by
    cases h with
    | cons h1 h2 =>
      rw [hsum, hsum]
      refine hsum_mono (rnd_mono ?_) h2
      have : (1 : ℚ) / 2 ^ r ≤ 1 / 2 ^ r' :=
        one_div_le_one_div_of_le (by positivity) (pow_le_pow_right₀ (by norm_num) h1)
      linarith

theorem le_hsum : ∀ {M : List Nat} {a : ℚ}, rnd a = a → a ≤ hsum a M
  | [], _, _ => le_rfl
  | r :: M, a, ha => by
    have h1 : a ≤ rnd (a + 1 / 2 ^ r) :=
      le_rnd_of_le ha (by simp only [Rat.cast_id]; linarith [term_pos r])
    exact le_trans h1 (le_hsum (rnd_rnd _))

theorem rnd_term {r : Nat} (hr : r ≤ 1000) : rnd ((1 : ℚ) / 2 ^ r) = 1 / 2 ^ r := by
  have := rnd_two_zpow (K := ℚ) (e := -(r : ℤ)) (by omega)
  rw [zpow_neg, zpow_natCast] at this
  rw [one_div]; exact this

/-- The floating point sum is at least its first summand. -/
theorem hsum_ge {M : List Nat} {r : Nat} (hr : r ≤ 1000) : 1 / 2 ^ r ≤ hsum 0 (r :: M) := by
  rw [hsum, zero_add, rnd_term hr]
  exact le_hsum (rnd_term hr)

/-- Error of the floating point sum. -/
theorem hsum_err : ∀ (M : List Nat) (a : ℚ), 0 ≤ a → rnd a = a → (∀ r ∈ M, r ≤ 1000) →
    |hsum a M - (a + hexact M)| ≤ (a + hexact M) * ((1 + 1 / 2 ^ 53) ^ M.length - 1)
  | [], a, _, _, _ => by simp [hsum, hexact]
  | r :: M, a, h0, ha, hM => by
    have hr : r ≤ 1000 := hM r (by simp)
    have ht := term_pos r
    have hH := hexact_nonneg M
    have herr := rnd_add_err ha (rnd_term hr)
    rw [abs_of_nonneg (a := a + 1 / 2 ^ r) (by linarith)] at herr
    have ih := hsum_err M (rnd (a + 1 / 2 ^ r)) (rnd_nonneg (by linarith)) (rnd_rnd _)
      (fun x hx => hM x (by simp [hx]))
    rw [hsum, hexact_cons, List.length_cons, pow_succ]
    obtain ⟨P, hP⟩ : ∃ P : ℚ, P = (1 + 1 / 2 ^ 53) ^ M.length := ⟨_, rfl⟩
    have hP1 : 1 ≤ P := by rw [hP]; exact one_le_pow₀ (by norm_num)
    rw [← hP] at ih ⊢
    generalize hsum (rnd (a + 1 / 2 ^ r)) M = X at *
    generalize rnd (a + 1 / 2 ^ r) = a' at *
    generalize (1 : ℚ) / 2 ^ r = t at *
    generalize hexact M = H at *
    obtain ⟨u, hu⟩ : ∃ u : ℚ, u = 1 / 2 ^ 53 := ⟨_, rfl⟩
    rw [div_eq_mul_one_div] at herr
    rw [← hu] at herr ⊢
    have hu0 : 0 < u := by rw [hu]; positivity
    have tri : |X - (a + (t + H))| ≤ |X - (a' + H)| + |a' - (a + t)| := by
      have : X - (a + (t + H)) = (X - (a' + H)) + (a' - (a + t)) := by ring
      rw [this]; exact abs_add_le _ _
    have hup : a' ≤ (a + t) + (a + t) * u := by linarith [(abs_le.1 herr).2]
    have h1 : (a' + H) * (P - 1) ≤ (a + t + H + (a + t + H) * u) * (P - 1) := by
      apply mul_le_mul_of_nonneg_right _ (by linarith)
      nlinarith
    have h2 : (a + t) * u ≤ (a + t + H) * u := by nlinarith
    calc _ ≤ (a' + H) * (P - 1) + (a + t) * u := by linarith
      _ ≤ (a + t + H + (a + t + H) * u) * (P - 1) + (a + t + H) * u := by linarith
      _ = (a + (t + H)) * (P * (1 + u) - 1) := by ring

/-- The sum is exact if all summands lie on a grid that is fine enough. -/
theorem hsum_exact {k : Nat} (hk : k ≤ 1000) : ∀ (M : List Nat) (i l : ℕ), (∀ r ∈ M, r ≤ k) →
    i ≤ l * 2 ^ k → (l + M.length) * 2 ^ k ≤ 2 ^ 53 →
    hsum ((i : ℚ) * (1 / 2 ^ k)) M = (i : ℚ) * (1 / 2 ^ k) + hexact M
  | [], i, l, _, _, _ => by simp [hsum, hexact]
  | r :: M, i, l, hM, hi, h53 => by
    have hr : r ≤ k := hM r (by simp)
    rw [List.length_cons] at h53
    have e : (i : ℚ) * (1 / 2 ^ k) + 1 / 2 ^ r = ((i + 2 ^ (k - r) : ℕ) : ℚ) * (1 / 2 ^ k) := by
      have : (1 : ℚ) / 2 ^ r = 2 ^ (k - r) * (1 / 2 ^ k) := by
        have h2 : (2 : ℚ) ^ k = 2 ^ (k - r) * 2 ^ r := by rw [← pow_add]; congr 1; omega
        rw [h2]; field_simp
      rw [this]; push_cast; ring
    have hle : i + 2 ^ (k - r) ≤ (l + 1) * 2 ^ k := by
      have : 2 ^ (k - r) ≤ 2 ^ k := Nat.pow_le_pow_right (by norm_num) (by omega)
      rw [Nat.add_mul]; omega
    have hle2 : (l + 1) * 2 ^ k ≤ 2 ^ 53 := by
      refine le_trans (Nat.mul_le_mul_right _ ?_) h53
      omega
    have hr2 : rnd ((i : ℚ) * (1 / 2 ^ k) + 1 / 2 ^ r) = ((i + 2 ^ (k - r) : ℕ) : ℚ) * (1 / 2 ^ k) := by
      rw [e]
      have := rnd_of_int_mul (K := ℚ) (m := ((i + 2 ^ (k - r) : ℕ) : ℤ)) (e := -(k : ℤ))
        (by rw [abs_of_nonneg (by positivity)]; exact_mod_cast le_trans hle hle2) (by omega)
      rw [zpow_neg, zpow_natCast] at this
      rw [one_div]
      exact_mod_cast this
    rw [hsum, hr2, hsum_exact hk M _ (l + 1) (fun x hx => hM x (by simp [hx])) hle
      (by rw [show l + 1 + M.length = l + (M.length + 1) by omega]; exact h53), ← e, hexact_cons]
    ring

/-! ## The raw estimate -/

/-- The value of `alpha`. -/
def alphaQ (p : Nat) : ℚ := (alpha p).val

theorem alpha_facts {p : Nat} (hp1 : 4 ≤ p) (hp2 : p ≤ 18) :
    alpha p = fin (alphaQ p) ∧ 67 / 100 ≤ alphaQ p ∧ alphaQ p ≤ 73 / 100 := by
  have h : ∀ q : Fin 15, alpha (4 + q) = fin (alphaQ (4 + q)) ∧ 67 / 100 ≤ alphaQ (4 + q) ∧
      alphaQ (4 + q) ≤ 73 / 100 := by decide +kernel
  have := h ⟨p - 4, by omega⟩
  simp only at this
  rwa [show 4 + (p - 4) = p by omega] at this

/-- The raw estimate computed for the sum `H`. -/
def rawQ (p : Nat) (H : ℚ) : ℚ := rnd (rnd (alphaQ p * (2 ^ p * 2 ^ p)) / H)

theorem rawNum_bounds {p : Nat} (hp1 : 4 ≤ p) (hp2 : p ≤ 18) :
    alphaQ p * (2 ^ p * 2 ^ p) * (1 - 1 / 2 ^ 53) ≤ rnd (alphaQ p * (2 ^ p * 2 ^ p)) ∧
    rnd (alphaQ p * (2 ^ p * 2 ^ p)) ≤ 2 ^ 36 := by
  obtain ⟨_, h1, h2⟩ := alpha_facts hp1 hp2
  have hm : (2 : ℚ) ^ p ≤ 2 ^ 18 := pow_le_pow_right₀ (by norm_num) hp2
  have hm1 : (1 : ℚ) ≤ 2 ^ p := one_le_pow₀ (by norm_num)
  have hmm : (2 : ℚ) ^ p * 2 ^ p ≤ 2 ^ 18 * 2 ^ 18 := by gcongr
  have hmm1 : (1 : ℚ) ≤ 2 ^ p * 2 ^ p := by nlinarith
  have hx : (1 / 2 : ℚ) ≤ alphaQ p * (2 ^ p * 2 ^ p) := by nlinarith
  constructor
  · have := abs_rnd_sub_le_rel (K := ℚ) (x := alphaQ p * (2 ^ p * 2 ^ p))
      (by rw [abs_of_pos (by linarith)]
          refine le_trans (le_trans ?_ (by norm_num : (2 : ℚ) ^ (-1 : ℤ) ≤ 1 / 2)) hx
          exact zpow_le_zpow_right₀ (by norm_num) (by norm_num))
    rw [abs_of_pos (a := alphaQ p * (2 ^ p * 2 ^ p)) (by linarith)] at this
    simp only [Rat.cast_id] at this
    linarith [(abs_le.1 this).1]
  · have h36 : rnd ((2 : ℚ) ^ 36) = 2 ^ 36 := by
      exact_mod_cast rnd_natCast (K := ℚ) (n := 2 ^ 36) (by norm_num)
    apply rnd_le_of_le h36
    simp only [Rat.cast_id]
    calc alphaQ p * (2 ^ p * 2 ^ p) ≤ 1 * (2 ^ 18 * 2 ^ 18) := by gcongr; linarith
      _ = 2 ^ 36 := by norm_num

theorem rawNum_pos {p : Nat} (hp1 : 4 ≤ p) (hp2 : p ≤ 18) :
    0 < rnd (alphaQ p * (2 ^ p * 2 ^ p)) := by
  obtain ⟨_, h1, _⟩ := alpha_facts hp1 hp2
  refine lt_of_lt_of_le ?_ (rawNum_bounds hp1 hp2).1
  have : (0 : ℚ) < 2 ^ p := by positivity
  have : (0 : ℚ) < alphaQ p := by linarith
  have : (0 : ℚ) < 1 - 1 / 2 ^ 53 := by norm_num
  positivity

/-- Registers that can occur at precision `p`: `2^p` of them, each below 64. -/
structure Regs (p : Nat) (M : List Nat) : Prop where
  length : M.length = 2 ^ p
  lt : ∀ r ∈ M, r < 64

theorem Regs.hsum_bounds {p : Nat} (hp2 : p ≤ 18) {M : List Nat} (h : Regs p M) :
    harmonic M = fin (hsum 0 M) ∧ 1 / 2 ^ 64 ≤ hsum 0 M ∧ hsum 0 M ≤ 2 ^ p := by
  have h18 : 2 ^ p ≤ 2 ^ 18 := Nat.pow_le_pow_right (by norm_num) hp2
  have hl := h.length
  obtain ⟨h1, _, h3⟩ := harmonic_eq (M := M) (by omega)
  refine ⟨h1, ?_, ?_⟩
  · cases M with
    | nil => simp at hl; exact absurd hl.symm (by positivity)
    | cons r M =>
      have hr := h.lt r (by simp)
      refine le_trans ?_ (hsum_ge (by omega))
      exact one_div_le_one_div_of_le (by positivity) (pow_le_pow_right₀ (by norm_num) (by omega))
  · rw [hl] at h3; exact_mod_cast h3

theorem Regs.raw_eq {p : Nat} (hp1 : 4 ≤ p) (hp2 : p ≤ 18) {M : List Nat} (h : Regs p M) :
    rawEstimate p M = fin (rawQ p (hsum 0 M)) := by
  obtain ⟨h1, h2, h3⟩ := h.hsum_bounds hp2
  obtain ⟨ha, ha1, ha2⟩ := alpha_facts hp1 hp2
  obtain ⟨hn1, hn2⟩ := rawNum_bounds hp1 hp2
  have hn0 := rawNum_pos hp1 hp2
  have hH : 0 < hsum 0 M := lt_of_lt_of_le (by positivity) h2
  have hm : (2 : ℚ) ^ p ≤ 2 ^ 18 := pow_le_pow_right₀ (by norm_num) hp2
  have hmul : mul (alpha p) (num (2 ^ p * 2 ^ p)) = fin (rnd (alphaQ p * (2 ^ p * 2 ^ p))) := by
    rw [ha, num, mul_fin_nonneg (by linarith) (by positivity)]
    · push_cast; rfl
    · push_cast
      calc alphaQ p * (2 ^ p * 2 ^ p) ≤ 1 * (2 ^ 18 * 2 ^ 18) := by gcongr; linarith
        _ = 2 ^ 36 := by norm_num
        _ ≤ 2 ^ 1023 := pow_le_pow_right₀ (by norm_num) (by norm_num)
  rw [rawEstimate, hmul, h1, div_fin_nonneg hn0.le hH, rawQ]
  rw [div_le_iff₀ hH]
  calc _ ≤ (2 : ℚ) ^ 36 := hn2
    _ = 2 ^ 100 * (1 / 2 ^ 64) := by norm_num
    _ ≤ 2 ^ 1023 * hsum 0 M := by
      apply mul_le_mul _ h2 (by positivity) (by positivity)
      exact pow_le_pow_right₀ (by norm_num) (by norm_num)

theorem rawQ_anti {p : Nat} (hp1 : 4 ≤ p) (hp2 : p ≤ 18) {H H' : ℚ} (h0 : 0 < H) (h : H ≤ H') :
    rawQ p H' ≤ rawQ p H := by
  apply rnd_mono
  exact div_le_div_of_nonneg_left (rawNum_pos hp1 hp2).le h0 h

/-- The raw estimate is at least `alpha m`, up to rounding. -/
theorem Regs.raw_bounds {p : Nat} (hp1 : 4 ≤ p) (hp2 : p ≤ 18) {M : List Nat} (h : Regs p M) :
    alphaQ p * 2 ^ p - 1 / 2 ^ 30 ≤ rawQ p (hsum 0 M) ∧ rawQ p (hsum 0 M) ≤ 2 ^ 100 := by
  obtain ⟨_, h2, h3⟩ := h.hsum_bounds hp2
  obtain ⟨ha, ha1, ha2⟩ := alpha_facts hp1 hp2
  obtain ⟨hn1, hn2⟩ := rawNum_bounds hp1 hp2
  have hn0 := rawNum_pos hp1 hp2
  have hH : 0 < hsum 0 M := lt_of_lt_of_le (by positivity) h2
  have hm0 : (0 : ℚ) < 2 ^ p := by positivity
  have hm : (2 : ℚ) ^ p ≤ 2 ^ 18 := pow_le_pow_right₀ (by norm_num) hp2
  have hm1 : (1 : ℚ) ≤ 2 ^ p := one_le_pow₀ (by norm_num)
  have ham : alphaQ p * 2 ^ p ≤ 2 ^ 18 := by nlinarith
  have ham1 : 1 / 2 ≤ alphaQ p * 2 ^ p := by nlinarith
  constructor
  · have hx : alphaQ p * 2 ^ p * (1 - 1 / 2 ^ 53) ≤ rnd (alphaQ p * (2 ^ p * 2 ^ p)) / hsum 0 M := by
      rw [le_div_iff₀ hH]
      refine le_trans ?_ hn1
      calc alphaQ p * 2 ^ p * (1 - 1 / 2 ^ 53) * hsum 0 M
          ≤ alphaQ p * 2 ^ p * (1 - 1 / 2 ^ 53) * 2 ^ p := by
            apply mul_le_mul_of_nonneg_left h3
            have : (0 : ℚ) < 1 - 1 / 2 ^ 53 := by norm_num
            positivity
        _ = _ := by ring
    have hx' : (1 / 4 : ℚ) ≤ alphaQ p * 2 ^ p * (1 - 1 / 2 ^ 53) := by norm_num at ham1 ⊢; linarith
    have hmono : rnd (alphaQ p * 2 ^ p * (1 - 1 / 2 ^ 53)) ≤ rawQ p (hsum 0 M) := rnd_mono hx
    refine le_trans ?_ hmono
    have := rnd_err (K := ℚ) (alphaQ p * 2 ^ p * (1 - 1 / 2 ^ 53))
    rw [abs_of_pos (a := alphaQ p * 2 ^ p * (1 - 1 / 2 ^ 53)) (by linarith)] at this
    simp only [Rat.cast_id] at this
    have htiny : (2 : ℚ) ^ (-1074 : ℤ) ≤ 1 / 2 ^ 60 := by
      have : (2 : ℚ) ^ (-1074 : ℤ) ≤ 2 ^ (-60 : ℤ) := zpow_le_zpow_right₀ (by norm_num) (by norm_num)
      refine le_trans this (by norm_num)
    generalize (2 : ℚ) ^ (-1074 : ℤ) = tiny at this htiny
    have := (abs_le.1 this).1
    generalize rnd (alphaQ p * 2 ^ p * (1 - 1 / 2 ^ 53)) = Y at *
    norm_num at this htiny ham ⊢
    linarith
  · have h100 : rnd ((2 : ℚ) ^ (100 : ℤ)) = 2 ^ (100 : ℤ) := rnd_two_zpow (by norm_num)
    have : rawQ p (hsum 0 M) ≤ 2 ^ (100 : ℤ) := by
      apply rnd_le_of_le h100
      simp only [Rat.cast_id]
      rw [div_le_iff₀ hH]
      calc _ ≤ (2 : ℚ) ^ 36 := hn2
        _ = 2 ^ (100 : ℤ) * (1 / 2 ^ 64) := by norm_num
        _ ≤ 2 ^ (100 : ℤ) * hsum 0 M := by gcongr
    exact_mod_cast this

/-! ## Registers of sets -/

theorem regs_regs {w p : Nat} (S : Finset Nat) (h : w - p < 63) : Regs p (regs w p S) := by
  refine ⟨by simp [regs], ?_⟩
  intro r hr
  obtain ⟨j, _, rfl⟩ := List.mem_map.1 hr
  exact lt_of_le_of_lt (reg_le w p S j) (by omega)

theorem reg_mono {w p : Nat} {S T : Finset Nat} (h : S ⊆ T) (j : Nat) : reg w p S j ≤ reg w p T j := by
  have : T = S ∪ T := (Finset.union_eq_right.2 h).symm
  rw [this, reg_union]; exact le_max_left _ _

theorem regs_mono {w p : Nat} {S T : Finset Nat} (h : S ⊆ T) :
    List.Forall₂ (fun r r' => r' ≤ r) (regs w p T) (regs w p S) := by
  unfold regs
  rw [List.forall₂_map_left_iff, List.forall₂_map_right_iff, List.forall₂_same]
  intro j _
  exact reg_mono h j

end HLL.Spec
