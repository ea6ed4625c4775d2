import Verif.Model.F64
import Mathlib.Algebra.Order.Floor.Ring
import Mathlib.Algebra.Order.Field.Power
import Mathlib.Tactic.Linarith
import Mathlib.Tactic.Positivity
import Mathlib.Tactic.NormNum
import Mathlib.Tactic.Ring
import Mathlib.Tactic.FieldSimp
import Mathlib.Tactic.Push
import Mathlib.Data.Nat.Log

/-! # Rounding: nearest, monotone, odd, exact on representable numbers -/

namespace HLL
namespace F64

section
variable {K : Type*} [Field K] [LinearOrder K] [IsStrictOrderedRing K] [FloorRing K]

theorem rne_cases (x : K) : (rne x = ⌊x⌋ ∧ x - ⌊x⌋ ≤ 1 / 2) ∨
    (rne x = ⌊x⌋ + 1 ∧ 1 / 2 ≤ x - ⌊x⌋) := by
  unfold rne
  split
  · left; exact ⟨rfl, by linarith⟩
  · split
    · right; exact ⟨rfl, by linarith⟩
    · split
      · left; exact ⟨rfl, by linarith⟩
      · right; exact ⟨rfl, by linarith⟩

theorem abs_rne_sub_le (x : K) : |(rne x : K) - x| ≤ 1 / 2 := by
  have h1 := Int.floor_le x
  have h2 := Int.lt_floor_add_one x
  rcases rne_cases x with ⟨h, h'⟩ | ⟨h, h'⟩ <;> rw [h, abs_le] <;> push_cast <;>
    constructor <;> linarith

theorem rne_intCast (n : ℤ) : rne (n : K) = n := by
  unfold rne
  rw [Int.floor_intCast, sub_self, if_pos (by norm_num)]

theorem rne_mono {x y : K} (h : x ≤ y) : rne x ≤ rne y := by
  rcases lt_or_eq_of_le (Int.floor_mono h) with hf | hf
  · have h1 : rne x ≤ ⌊x⌋ + 1 := by rcases rne_cases x with ⟨h, _⟩ | ⟨h, _⟩ <;> omega
    have h2 : ⌊y⌋ ≤ rne y := by rcases rne_cases y with ⟨h, _⟩ | ⟨h, _⟩ <;> omega
    omega
  · unfold rne
    rw [← hf]
    have : x - ⌊x⌋ ≤ y - ⌊x⌋ := by linarith
    split
    · split
      · rfl
      · split
        · omega
        · split <;> omega
    · rename_i h1
      rw [if_neg (show ¬ (y - ⌊x⌋ < 1 / 2) by intro hc; exact h1 (lt_of_le_of_lt this hc))]
      split
      · rename_i h2
        rw [if_pos (lt_of_lt_of_le h2 this)]
      · split
        · split
          · omega
          · rfl
        · split
          · rfl
          · rfl

theorem le_rne {n : ℤ} {x : K} (h : (n : K) ≤ x) : n ≤ rne x := by
  rw [← rne_intCast (K := K) n]; exact rne_mono h

theorem rne_le {n : ℤ} {x : K} (h : x ≤ (n : K)) : rne x ≤ n := by
  rw [← rne_intCast (K := K) n]; exact rne_mono h

theorem rne_neg (x : K) : rne (-x) = - rne x := by
  by_cases hx : (⌊x⌋ : K) = x
  · rw [← hx, ← Int.cast_neg, rne_intCast, rne_intCast]
  · have hl : (⌊x⌋ : K) < x := lt_of_le_of_ne (Int.floor_le x) hx
    have h2 := Int.lt_floor_add_one x
    have hf : ⌊-x⌋ = -⌊x⌋ - 1 := by
      rw [Int.floor_eq_iff]
      push_cast
      constructor <;> linarith
    unfold rne
    rw [hf]
    push_cast
    have e1 : -x - (-(⌊x⌋ : K) - 1) = 1 - (x - ⌊x⌋) := by ring
    rw [e1]
    rcases lt_trichotomy (x - ⌊x⌋) (1 / 2) with h | h | h
    · rw [if_neg (by linarith), if_pos (by linarith), if_pos h]; ring
    · rw [if_neg (show ¬ (1 - (x - ⌊x⌋) < 1 / 2) by rw [h]; norm_num),
        if_neg (show ¬ (1 / 2 < 1 - (x - ⌊x⌋)) by rw [h]; norm_num),
        if_neg (show ¬ (x - ⌊x⌋ < 1 / 2) by rw [h]; norm_num),
        if_neg (show ¬ (1 / 2 < x - ⌊x⌋) by rw [h]; norm_num)]
      split <;> split <;> omega
    · rw [if_pos (by linarith), if_neg (by linarith), if_pos h]; ring

theorem ulpExp_neg (x : K) : ulpExp (-x) = ulpExp x := by unfold ulpExp; rw [abs_neg]

theorem rnd_neg (x : K) : rnd (-x) = - rnd x := by
  unfold rnd
  rw [ulpExp_neg, neg_div, rne_neg]
  push_cast; ring

theorem rnd_zero : rnd (0 : K) = 0 := by
  unfold rnd
  rw [zero_div, show (0 : K) = ((0 : ℤ) : K) by simp, rne_intCast]; simp

theorem ulpExp_ge (x : K) : -1074 ≤ ulpExp x := le_max_right _ _

theorem ulpExp_mono {x y : K} (hx : 0 < x) (h : x ≤ y) : ulpExp x ≤ ulpExp y := by
  unfold ulpExp
  rw [abs_of_pos hx, abs_of_pos (lt_of_lt_of_le hx h)]
  have := Int.log_mono_right (b := 2) hx h
  omega

theorem lt_two_pow_ulpExp {x : K} (hx : 0 < x) : x < 2 ^ (ulpExp x + 53) := by
  have h := Int.lt_zpow_succ_log_self (b := 2) (by norm_num) x
  refine lt_of_lt_of_le h ?_
  push_cast
  apply zpow_le_zpow_right₀ (by norm_num)
  have : Int.log 2 |x| - 52 ≤ ulpExp x := le_max_left _ _
  rw [abs_of_pos hx] at this
  omega

theorem two_pow_pos (e : ℤ) : (0 : K) < 2 ^ e := by positivity

theorem int_two_pow_mul (n : ℕ) (e : ℤ) : ((2 ^ n : ℤ) : K) * 2 ^ e = 2 ^ (e + n) := by
  rw [Int.cast_pow, zpow_add₀ (by norm_num), zpow_natCast, mul_comm]; norm_num

theorem rnd_nonneg {x : K} (hx : 0 ≤ x) : 0 ≤ rnd x := by
  unfold rnd
  have : 0 ≤ rne (x / 2 ^ ulpExp x) := le_rne (by simp; positivity)
  have : (0 : ℚ) ≤ (rne (x / 2 ^ ulpExp x) : ℚ) := by exact_mod_cast this
  positivity

/-- A positive number in the top binade of its ulp rounds to at least its power of two. -/
theorem two_pow_le_rnd {x : K} {E : ℤ} (hE : -1022 ≤ E) (hx : (2 : K) ^ E ≤ x) :
    (2 : ℚ) ^ E ≤ rnd x := by
  have hx0 : 0 < x := lt_of_lt_of_le (two_pow_pos E) hx
  have hlog : E ≤ Int.log 2 x := by
    rw [← Int.zpow_le_iff_le_log (by norm_num) hx0]; exact_mod_cast hx
  set L := Int.log 2 x with hL
  have hu : ulpExp x = L - 52 := by
    unfold ulpExp; rw [abs_of_pos hx0, ← hL]; omega
  have hLx : (2 : K) ^ L ≤ x := by
    have := Int.zpow_log_le_self (b := 2) (by norm_num) hx0
    exact_mod_cast this
  have h1 : (2 ^ 52 : ℤ) ≤ rne (x / 2 ^ (L - 52)) := by
    apply le_rne
    rw [le_div_iff₀ (two_pow_pos _)]
    rw [int_two_pow_mul]
    refine le_trans (le_of_eq ?_) hLx
    congr 1; push_cast; ring
  have h2 : ((2 ^ 52 : ℤ) : ℚ) ≤ (rne (x / 2 ^ (L - 52)) : ℚ) := by exact_mod_cast h1
  unfold rnd
  rw [hu]
  calc (2 : ℚ) ^ E ≤ 2 ^ L := zpow_le_zpow_right₀ (by norm_num) hlog
    _ = ((2 ^ 52 : ℤ) : ℚ) * 2 ^ (L - 52) := by
        rw [int_two_pow_mul]; congr 1; push_cast; ring
    _ ≤ _ := by
        apply mul_le_mul_of_nonneg_right h2
        positivity

theorem rnd_mono_pos {x y : K} (hx : 0 < x) (h : x ≤ y) : rnd x ≤ rnd y := by
  have hy := lt_of_lt_of_le hx h
  have hu := ulpExp_mono hx h
  rcases lt_or_eq_of_le hu with hlt | heq
  · -- strictly larger ulp
    set U := ulpExp y with hU
    have hge := ulpExp_ge x
    have hUy : U = Int.log 2 y - 52 := by
      have : U = max (Int.log 2 |y| - 52) (-1074) := rfl
      rw [abs_of_pos hy] at this
      omega
    have hy2 : (2 : K) ^ (U + 52) ≤ y := by
      have := Int.zpow_log_le_self (b := 2) (by norm_num) hy
      rw [hUy]; simpa using this
    have h1 := two_pow_le_rnd (by omega) hy2
    refine le_trans ?_ h1
    have hx2 := lt_two_pow_ulpExp hx
    unfold rnd
    have h3 : rne (x / 2 ^ ulpExp x) ≤ 2 ^ 53 := by
      apply rne_le
      rw [div_le_iff₀ (two_pow_pos _)]
      rw [int_two_pow_mul]
      exact le_of_lt hx2
    have h4 : (rne (x / 2 ^ ulpExp x) : ℚ) ≤ ((2 ^ 53 : ℤ) : ℚ) := by exact_mod_cast h3
    calc (rne (x / 2 ^ ulpExp x) : ℚ) * 2 ^ ulpExp x
        ≤ ((2 ^ 53 : ℤ) : ℚ) * 2 ^ ulpExp x := mul_le_mul_of_nonneg_right h4 (by positivity)
      _ = 2 ^ (ulpExp x + 53) := by
          rw [int_two_pow_mul]; rfl
      _ ≤ 2 ^ (U + 52) := zpow_le_zpow_right₀ (by norm_num) (by omega)
  · unfold rnd
    rw [← heq]
    apply mul_le_mul_of_nonneg_right _ (by positivity)
    have : rne (x / 2 ^ ulpExp x) ≤ rne (y / 2 ^ ulpExp x) :=
      rne_mono (div_le_div_of_nonneg_right h (le_of_lt (two_pow_pos _)))
    exact_mod_cast this

/-- Rounding is monotone. -/
theorem rnd_mono {x y : K} (h : x ≤ y) : rnd x ≤ rnd y := by
  rcases lt_trichotomy x 0 with hx | hx | hx
  · rcases lt_trichotomy y 0 with hy | hy | hy
    · have := rnd_mono_pos (x := -y) (y := -x) (by linarith) (by linarith)
      rw [rnd_neg, rnd_neg] at this
      linarith
    · subst hy
      have := rnd_nonneg (x := -x) (by linarith)
      rw [rnd_neg] at this
      rw [rnd_zero]; linarith
    · have := rnd_nonneg (x := -x) (by linarith)
      rw [rnd_neg] at this
      have := rnd_nonneg (x := y) (by linarith)
      linarith
  · subst hx
    rw [rnd_zero]; exact rnd_nonneg h
  · exact rnd_mono_pos hx h

/-- Rounding changes a number by at most half a unit in the last place. -/
theorem abs_rnd_sub_le (x : K) : |((rnd x : ℚ) : K) - x| ≤ 2 ^ ulpExp x / 2 := by
  have h := abs_rne_sub_le (x / 2 ^ ulpExp x)
  have hp := two_pow_pos (K := K) (ulpExp x)
  have e : ((rnd x : ℚ) : K) - x = ((rne (x / 2 ^ ulpExp x) : K) - x / 2 ^ ulpExp x) * 2 ^ ulpExp x := by
    unfold rnd
    push_cast
    rw [sub_mul, div_mul_cancel₀ _ hp.ne']
  rw [e, abs_mul, abs_of_pos hp]
  calc _ ≤ 1 / 2 * (2 : K) ^ ulpExp x := mul_le_mul_of_nonneg_right h (le_of_lt hp)
    _ = _ := by ring

/-- Relative error of rounding in the normal range. -/
theorem abs_rnd_sub_le_rel {x : K} (hx : (2 : K) ^ (-1022 : ℤ) ≤ |x|) :
    |((rnd x : ℚ) : K) - x| ≤ |x| / 2 ^ 53 := by
  have hx0 : 0 < |x| := lt_of_lt_of_le (two_pow_pos _) hx
  refine le_trans (abs_rnd_sub_le x) ?_
  have hlog : (-1022 : ℤ) ≤ Int.log 2 |x| := by
    rw [← Int.zpow_le_iff_le_log (by norm_num) hx0]; exact_mod_cast hx
  have hu : ulpExp x = Int.log 2 |x| - 52 := by unfold ulpExp; omega
  have hLx : (2 : K) ^ Int.log 2 |x| ≤ |x| := by
    have := Int.zpow_log_le_self (b := 2) (by norm_num) hx0
    exact_mod_cast this
  rw [hu, zpow_sub₀ (by norm_num)]
  rw [div_div, div_le_div_iff₀ (by positivity) (by positivity)]
  norm_num at hLx ⊢
  nlinarith

/-- Numbers with at most 53 significant bits are not changed by rounding. -/
theorem rnd_of_int_mul {m e : ℤ} (hm : |m| ≤ 2 ^ 53) (he : -1074 ≤ e) :
    rnd ((m : K) * 2 ^ e) = (m : ℚ) * 2 ^ e := by
  -- enough for |m| < 2^53
  have key : ∀ {m e : ℤ}, |m| < 2 ^ 53 → -1074 ≤ e →
      rnd ((m : K) * 2 ^ e) = (m : ℚ) * 2 ^ e := by
    intro m e hm he
    rcases eq_or_ne m 0 with rfl | hm0
    · simp [rnd_zero]
    have habs : |(m : K) * 2 ^ e| = (|m| : ℤ) * 2 ^ e := by
      rw [abs_mul, abs_of_pos (two_pow_pos (K := K) e)]; push_cast; rfl
    have hpos : (0 : K) < (|m| : ℤ) * 2 ^ e := by
      rw [← habs, abs_pos]
      exact mul_ne_zero (by exact_mod_cast hm0) (two_pow_pos e).ne'
    have hu : ulpExp ((m : K) * 2 ^ e) ≤ e := by
      unfold ulpExp
      rw [habs]
      have : Int.log 2 ((|m| : ℤ) * (2 : K) ^ e) < e + 53 := by
        rw [← Int.lt_zpow_iff_log_lt (by norm_num) hpos]
        have h53 := int_two_pow_mul (K := K) 53 e
        push_cast at h53 ⊢
        rw [← h53]
        apply mul_lt_mul_of_pos_right _ (two_pow_pos e)
        have : ((|m| : ℤ) : K) < ((2 ^ 53 : ℤ) : K) := by exact_mod_cast hm
        push_cast at this
        exact this
      omega
    obtain ⟨d, hd⟩ : ∃ d : ℕ, e = ulpExp ((m : K) * 2 ^ e) + d := ⟨(e - ulpExp ((m : K) * 2 ^ e)).toNat, by omega⟩
    have hdiv : (m : K) * 2 ^ e / 2 ^ ulpExp ((m : K) * 2 ^ e) = ((m * 2 ^ d : ℤ) : K) := by
      rw [div_eq_iff (two_pow_pos _).ne']
      push_cast
      rw [mul_assoc, ← zpow_natCast, ← zpow_add₀ (by norm_num)]
      congr 2
      omega
    unfold rnd
    rw [hdiv, rne_intCast]
    push_cast
    rw [mul_assoc, ← zpow_natCast, ← zpow_add₀ (by norm_num)]
    congr 2
    omega
  rcases lt_or_eq_of_le hm with h | h
  · exact key h he
  · have h2 : m = 2 ^ 53 ∨ m = - 2 ^ 53 := by
      rcases abs_cases m with ⟨h', _⟩ | ⟨h', _⟩ <;> omega
    rcases h2 with rfl | rfl
    · have := key (m := 2 ^ 52) (e := e + 1) (by norm_num) (by omega)
      rw [zpow_add₀ (by norm_num), zpow_add₀ (by norm_num)] at this
      push_cast at this ⊢
      rw [show (9007199254740992 : K) * 2 ^ e = 4503599627370496 * (2 ^ e * 2 ^ (1 : ℤ)) by
        rw [zpow_one]; ring, this]
      ring
    · have := key (m := - 2 ^ 52) (e := e + 1) (by norm_num) (by omega)
      rw [zpow_add₀ (by norm_num), zpow_add₀ (by norm_num)] at this
      push_cast at this ⊢
      rw [show (-9007199254740992 : K) * 2 ^ e = -4503599627370496 * (2 ^ e * 2 ^ (1 : ℤ)) by
        rw [zpow_one]; ring, this]
      ring

/-- The rounded number is representable. -/
theorem rnd_form (x : K) : ∃ m e : ℤ, |m| ≤ 2 ^ 53 ∧ -1074 ≤ e ∧ rnd x = (m : ℚ) * 2 ^ e := by
  refine ⟨rne (x / 2 ^ ulpExp x), ulpExp x, ?_, ulpExp_ge x, rfl⟩
  rcases eq_or_ne x 0 with rfl | hx
  · rw [zero_div, show (0 : K) = ((0 : ℤ) : K) by simp, rne_intCast]; norm_num
  have hb : |x| < 2 ^ (ulpExp x + 53) := by
    have := lt_two_pow_ulpExp (abs_pos.2 hx)
    rwa [show ulpExp |x| = ulpExp x by unfold ulpExp; rw [abs_abs]] at this
  have hb2 : |x / 2 ^ ulpExp x| < 2 ^ 53 := by
    rw [abs_div, abs_of_pos (two_pow_pos (K := K) (ulpExp x)), div_lt_iff₀ (two_pow_pos _)]
    rw [zpow_add₀ (by norm_num)] at hb
    rw [mul_comm]
    exact_mod_cast hb
  rw [abs_lt] at hb2
  rw [abs_le]
  constructor
  · apply le_rne; push_cast; linarith
  · apply rne_le; push_cast; linarith

theorem rnd_idem (x : K) : rnd (rnd x) = rnd x := by
  obtain ⟨m, e, hm, he, h⟩ := rnd_form x
  rw [h, rnd_of_int_mul hm he]

theorem rnd_natCast {n : ℕ} (h : n ≤ 2 ^ 53) : rnd (n : K) = n := by
  have := rnd_of_int_mul (K := K) (m := n) (e := 0) (by simpa using (by exact_mod_cast h)) (by norm_num)
  simpa using this

theorem rnd_two_zpow {e : ℤ} (he : -1074 ≤ e) : rnd ((2 : K) ^ e) = 2 ^ e := by
  have := rnd_of_int_mul (K := K) (m := 1) (e := e) (by norm_num) he
  simpa using this

theorem rnd_le_of_le {x : K} {q : ℚ} (hq : rnd q = q) (h : x ≤ (q : K)) : rnd x ≤ q := by
  have h2 : rnd (q : K) = q := by
    obtain ⟨m, e, hm, he, h3⟩ := rnd_form q
    rw [hq] at h3
    rw [h3]; push_cast; exact rnd_of_int_mul hm he
  rw [← h2]; exact rnd_mono h

theorem le_rnd_of_le {x : K} {q : ℚ} (hq : rnd q = q) (h : (q : K) ≤ x) : q ≤ rnd x := by
  have h2 : rnd (q : K) = q := by
    obtain ⟨m, e, hm, he, h3⟩ := rnd_form q
    rw [hq] at h3
    rw [h3]; push_cast; exact rnd_of_int_mul hm he
  rw [← h2]; exact rnd_mono h

end
end F64
end HLL
