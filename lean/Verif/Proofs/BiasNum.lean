import Verif.Proofs.Tables
import Verif.Proofs.Bias
import Mathlib.Tactic.Linarith

/-! # Accuracy of the bias interpolation -/

namespace HLL
open F64

theorem tiny_le : (2 : ℚ) ^ (-1074 : ℤ) ≤ 1 / 2 ^ 100 := by
  have : (2 : ℚ) ^ (-1074 : ℤ) ≤ 2 ^ (-100 : ℤ) := zpow_le_zpow_right₀ (by norm_num) (by norm_num)
  refine le_trans this (by norm_num)

theorem big_le {x : ℚ} (h : |x| ≤ 2 ^ 200) : |x| ≤ 2 ^ 1023 :=
  le_trans h (pow_le_pow_right₀ (by norm_num) (by norm_num))

/-- Rounding error, underflow absorbed in a constant. -/
theorem rnd_err' (x : ℚ) : |rnd x - x| ≤ |x| / 2 ^ 53 + 1 / 2 ^ 100 := by
  have h := rnd_err (K := ℚ) x
  simp only [Rat.cast_id] at h
  have := tiny_le
  linarith

/-- The interpolation formula of the source, in floating point. -/
def interpF (e' e b' b raw : F64) : F64 :=
  add b' (mul (div (sub raw e') (sub e e')) (sub b b'))

/-- The floating point interpolation is within `2^-29` of the exact one. -/
theorem interpF_approx {e' e b' b raw : ℚ} (he' : rnd e' = e') (he : rnd e = e) (hb' : rnd b' = b')
    (hb : rnd b = b) (hraw : rnd raw = raw) (hne : e - e' ≠ 0) (hd : |e - e'| ≤ 2 ^ 30)
    (hbb' : |b'| ≤ 2 ^ 19) (hbb : |b| ≤ 2 ^ 19) {t : ℚ} (ht : raw - e' = (e - e') * t)
    (ht0 : 0 ≤ t) (ht1 : t ≤ 1) :
    ∃ x, Is (interpF (fin e') (fin e) (fin b') (fin b) (fin raw)) x ∧
      |x - (b' + t * (b - b'))| ≤ 1 / 2 ^ 29 := by
  have h1 := rnd_sub_err hraw he'
  have h2 := rnd_sub_err he he'
  have h4 := rnd_sub_err hb hb'
  have hdt : |raw - e'| = |e - e'| * t := by rw [ht, abs_mul, abs_of_nonneg ht0]
  have hd0 : 0 < |e - e'| := abs_pos.2 hne
  have hx1 : |raw - e'| ≤ 2 ^ 30 := by rw [hdt]; nlinarith
  have hbd : |b - b'| ≤ 2 ^ 20 := by
    refine le_trans (abs_sub _ _) ?_
    norm_num at hbb hbb' ⊢; linarith
  have i1 : Is (sub (fin raw) (fin e')) (rnd (raw - e')) :=
    (Is.fin _).sub (Is.fin _) (big_le (le_trans hx1 (by norm_num)))
  have i2 : Is (sub (fin e) (fin e')) (rnd (e - e')) :=
    (Is.fin _).sub (Is.fin _) (big_le (le_trans hd (by norm_num)))
  have i4 : Is (sub (fin b) (fin b')) (rnd (b - b')) :=
    (Is.fin _).sub (Is.fin _) (big_le (le_trans hbd (by norm_num)))
  generalize rnd (raw - e') = x1 at *
  generalize rnd (e - e') = x2 at *
  generalize rnd (b - b') = x4 at *
  rw [ht] at h1
  rw [abs_mul, abs_of_nonneg ht0] at h1
  generalize e - e' = d at *
  -- |x2| ≥ |d| (1 - u)
  have hx2 : |d| * (1 - 1 / 2 ^ 53) ≤ |x2| := by
    have := abs_sub_abs_le_abs_sub d x2
    rw [abs_sub_comm] at this
    linarith
  have hx2pos : 0 < |x2| := lt_of_lt_of_le (mul_pos hd0 (by norm_num)) hx2
  have hx2ne : x2 ≠ 0 := abs_pos.1 hx2pos
  have hq : |x1 / x2 - t| ≤ 3 / 2 ^ 53 := by
    have e1 : x1 / x2 - t = (x1 - t * x2) / x2 := by field_simp
    have e2 : |x1 - t * x2| ≤ 2 * (|d| * t / 2 ^ 53) := by
      have : x1 - t * x2 = (x1 - d * t) + t * (d - x2) := by ring
      rw [this]
      refine le_trans (abs_add_le _ _) ?_
      rw [abs_mul, abs_of_nonneg ht0, abs_sub_comm d x2]
      have : t * |x2 - d| ≤ t * (|d| / 2 ^ 53) := mul_le_mul_of_nonneg_left h2 ht0
      have e3 : t * (|d| / 2 ^ 53) = |d| * t / 2 ^ 53 := by ring
      linarith
    rw [e1, abs_div, div_le_iff₀ hx2pos]
    refine le_trans e2 ?_
    have : |d| * t ≤ |d| := by nlinarith
    norm_num at hx2 ⊢
    linarith
  have hqb : |x1 / x2| ≤ 2 := by
    have := abs_sub_abs_le_abs_sub (x1 / x2) t
    rw [abs_of_nonneg ht0] at this
    norm_num at hq ⊢
    linarith
  have i3 : Is (div (sub (fin raw) (fin e')) (sub (fin e) (fin e'))) (rnd (x1 / x2)) :=
    i1.div i2 hx2ne (big_le (le_trans hqb (by norm_num)))
  have h3 := rnd_err' (x1 / x2)
  generalize rnd (x1 / x2) = x3 at *
  have hx3 : |x3 - t| ≤ 6 / 2 ^ 53 := by
    have : x3 - t = (x3 - x1 / x2) + (x1 / x2 - t) := by ring
    rw [this]
    refine le_trans (abs_add_le _ _) ?_
    norm_num at h3 hq ⊢
    linarith
  have hx3b : |x3| ≤ 2 := by
    have := abs_sub_abs_le_abs_sub x3 t
    rw [abs_of_nonneg ht0] at this
    norm_num at hx3 ⊢
    linarith
  have hx4 : |x4 - (b - b')| ≤ 1 / 2 ^ 33 := by
    refine le_trans h4 ?_
    norm_num at hbd ⊢; linarith
  have hx4b : |x4| ≤ 2 ^ 20 + 1 := by
    have := abs_sub_abs_le_abs_sub x4 (b - b')
    norm_num at hx4 hbd ⊢
    linarith
  have hprod : |x3 * x4| ≤ 2 ^ 22 := by
    rw [abs_mul]
    calc |x3| * |x4| ≤ 2 * (2 ^ 20 + 1) := by gcongr
      _ ≤ 2 ^ 22 := by norm_num
  have i5 := i3.mul i4 (big_le (le_trans hprod (by norm_num)))
  have h5 := rnd_err' (x3 * x4)
  generalize rnd (x3 * x4) = x5 at *
  have hx5 : |x5 - t * (b - b')| ≤ 9 / 2 ^ 33 := by
    have e1 : x5 - t * (b - b') = (x5 - x3 * x4) + ((x3 - t) * x4 + t * (x4 - (b - b'))) := by ring
    rw [e1]
    refine le_trans (abs_add_le _ _) ?_
    have e2 : |(x3 - t) * x4 + t * (x4 - (b - b'))| ≤ 6 / 2 ^ 53 * (2 ^ 20 + 1) + 1 * (1 / 2 ^ 33) := by
      refine le_trans (abs_add_le _ _) ?_
      rw [abs_mul, abs_mul, abs_of_nonneg ht0]
      gcongr
    have hprod' : |x3 * x4| ≤ 2 * (2 ^ 20 + 1) / 2 + (2 ^ 20 + 1) / 2 ^ 10 := by
      rw [abs_mul]
      have : |x3| ≤ 1 + 6 / 2 ^ 53 := by
        have := abs_sub_abs_le_abs_sub x3 t
        rw [abs_of_nonneg ht0] at this
        linarith
      calc |x3| * |x4| ≤ (1 + 6 / 2 ^ 53) * (2 ^ 20 + 1) := by gcongr
        _ ≤ _ := by norm_num
    linarith
  have htb : |t * (b - b')| ≤ 2 ^ 20 := by
    rw [abs_mul, abs_of_nonneg ht0]
    calc t * |b - b'| ≤ 1 * 2 ^ 20 := by gcongr
      _ = 2 ^ 20 := by norm_num
  have hsum : |b' + x5| ≤ 2 ^ 21 := by
    have : b' + x5 = b' + t * (b - b') + (x5 - t * (b - b')) := by ring
    rw [this]
    refine le_trans (abs_add_le _ _) ?_
    have := abs_add_le b' (t * (b - b'))
    linarith
  refine ⟨_, (Is.fin b').add i5 (big_le (le_trans hsum (by norm_num))), ?_⟩
  have h6 := rnd_err' (b' + x5)
  have e1 : rnd (b' + x5) - (b' + t * (b - b')) = (rnd (b' + x5) - (b' + x5)) + (x5 - t * (b - b')) := by
    ring
  rw [e1]
  refine le_trans (abs_add_le _ _) ?_
  linarith

namespace Plus

/-- Value of entry `k` of the table of raw estimates (of biases) of precision `p`. -/
def rawV (p k : Nat) : ℚ := ((rawTable p).getD k nan).val
def biasV (p k : Nat) : ℚ := ((biasTable p).getD k nan).val

theorem getD_map_ofDec {l : List (ℤ × ℕ)} {k : Nat} (hk : k < l.length) :
    (l.map fun d => ofDec d.1 d.2).getD k nan = ofDec (l.getD k (0, 0)).1 (l.getD k (0, 0)).2 := by
  rw [List.getD_eq_getElem _ _ (by simpa using hk), List.getElem_map, List.getD_eq_getElem _ _ hk]

theorem rawTable_eq (p : Nat) : rawTable p = (Tables.rawL (p - 4)).map fun d => ofDec d.1 d.2 := by
  rw [rawTable, Constants.RAW_ESTIMATE_DATA, Tables.rawL, List.getD_eq_getElem?_getD,
    List.getD_eq_getElem?_getD, List.getElem?_map]
  cases Constants.rawDec[p - 4]? <;> rfl

theorem biasTable_eq (p : Nat) : biasTable p = (Tables.biasL (p - 4)).map fun d => ofDec d.1 d.2 := by
  rw [biasTable, Constants.BIAS_DATA, Tables.biasL, List.getD_eq_getElem?_getD,
    List.getD_eq_getElem?_getD, List.getElem?_map]
  cases Constants.biasDec[p - 4]? <;> rfl

theorem ofDec_val {d : ℤ × ℕ} (h16 : d.2 ≤ 16) (hb : |Tables.sc d| ≤ 2 ^ 21 * 10 ^ 16) :
    ∃ q : ℚ, ofDec d.1 d.2 = fin q ∧ rnd q = q ∧ |q - (Tables.sc d : ℚ) / 10 ^ 16| ≤ 1 / 2 ^ 31 := by
  have e : (d.1 : ℚ) / 10 ^ d.2 = (Tables.sc d : ℚ) / 10 ^ 16 := by
    unfold Tables.sc
    have : (10 : ℚ) ^ 16 = 10 ^ (16 - d.2) * 10 ^ d.2 := by
      rw [← pow_add]; congr 1; omega
    rw [this]; push_cast
    field_simp
  have hx : |(d.1 : ℚ) / 10 ^ d.2| ≤ 2 ^ 21 := by
    rw [e, abs_div, abs_of_pos (a := (10 : ℚ) ^ 16) (by positivity), div_le_iff₀ (by positivity)]
    exact_mod_cast hb
  refine ⟨rnd ((d.1 : ℚ) / 10 ^ d.2), ?_, rnd_rnd _, ?_⟩
  · exact round_fin (big_le (le_trans hx (by norm_num))) (Or.inl rfl)
  · rw [← e]
    have := rnd_err' ((d.1 : ℚ) / 10 ^ d.2)
    norm_num at this hx ⊢
    linarith

/-- The facts about the tables of precision `p` used below. -/
structure TableFacts (p k : Nat) : Prop where
  raw_eq : (rawTable p).getD k nan = fin (rawV p k)
  bias_eq : (biasTable p).getD k nan = fin (biasV p k)
  raw_rnd : rnd (rawV p k) = rawV p k
  bias_rnd : rnd (biasV p k) = biasV p k
  raw_ge : 7 ≤ rawV p k
  raw_le : rawV p k ≤ 5 * 2 ^ p + 1
  bias_le : |biasV p k| ≤ 2 ^ p + 1
  gap : 1 - 1 / 2 ^ 30 ≤ rawV p k - biasV p k

theorem rawL_length (p : Nat) : (Tables.rawL (p - 4)).length = (rawTable p).length := by
  rw [rawTable_eq]; simp
theorem biasL_length (p : Nat) : (Tables.biasL (p - 4)).length = (biasTable p).length := by
  rw [biasTable_eq]; simp

theorem vals {p : Nat} (hp1 : 4 ≤ p) (hp2 : p ≤ 18) {k : Nat} (hk : k < (rawTable p).length) :
    TableFacts p k ∧
    |rawV p k - (Tables.sc ((Tables.rawL (p - 4)).getD k (0, 0)) : ℚ) / 10 ^ 16| ≤ 1 / 2 ^ 31 ∧
    |biasV p k - (Tables.sc ((Tables.biasL (p - 4)).getD k (0, 0)) : ℚ) / 10 ^ 16| ≤ 1 / 2 ^ 31 := by
  have hlen := (table_lengths hp1 hp2).1
  have hk1 : k < (Tables.rawL (p - 4)).length := by rw [rawL_length]; exact hk
  have hk2 : k < (Tables.biasL (p - 4)).length := by rw [biasL_length]; omega
  have hck := Tables.entriesOk_get (Tables.entries_ok (p - 4) (by omega)) k hk1
  rw [show p - 4 + 4 = p by omega] at hck
  have hm : (2 : ℤ) ^ p ≤ 2 ^ 18 := pow_le_pow_right₀ (by norm_num) hp2
  have hpm : (16 : ℚ) ≤ 2 ^ p := by
    calc (16 : ℚ) = 2 ^ 4 := by norm_num
      _ ≤ 2 ^ p := pow_le_pow_right₀ (by norm_num) hp1
  have er := getD_map_ofDec hk1
  have eb := getD_map_ofDec hk2
  rw [← rawTable_eq] at er
  rw [← biasTable_eq] at eb
  generalize (Tables.rawL (p - 4)).getD k (0, 0) = r at *
  generalize (Tables.biasL (p - 4)).getD k (0, 0) = b at *
  simp only [Tables.entryOk, Bool.and_eq_true, decide_eq_true_eq] at hck
  obtain ⟨⟨⟨⟨⟨c1, c2⟩, c3⟩, c4⟩, c5⟩, c6⟩ := hck
  obtain ⟨q, q1, q2, q3⟩ := ofDec_val (d := r) c1 (by
    rw [abs_of_nonneg (by linarith)]
    refine le_trans c4 ?_
    linarith)
  obtain ⟨s, s1, s2, s3⟩ := ofDec_val (d := b) c2 (by
    refine le_trans c5 ?_
    linarith)
  have v1 : rawV p k = q := by rw [rawV, er, q1]; rfl
  have v2 : biasV p k = s := by rw [biasV, eb, s1]; rfl
  have c3' : (8 * 10 ^ 16 : ℚ) ≤ Tables.sc r := by exact_mod_cast c3
  have c4' : (Tables.sc r : ℚ) ≤ 5 * 2 ^ p * 10 ^ 16 := by exact_mod_cast c4
  have c5' : |(Tables.sc b : ℚ)| ≤ 2 ^ p * 10 ^ 16 := by exact_mod_cast c5
  have c6' : (10 ^ 16 : ℚ) ≤ (Tables.sc r : ℚ) - Tables.sc b := by exact_mod_cast c6
  refine ⟨⟨by rw [er, q1, v1], by rw [eb, s1, v2], by rw [v1]; exact q2, by rw [v2]; exact s2, ?_, ?_, ?_, ?_⟩,
    by rw [v1]; exact q3, by rw [v2]; exact s3⟩
  · rw [v1]
    norm_num at q3 c3' ⊢
    linarith [(abs_le.1 q3).1]
  · rw [v1]
    norm_num at q3 c4' ⊢
    linarith [(abs_le.1 q3).2]
  · rw [v2]
    rw [abs_le] at *
    norm_num at s3 c5' ⊢
    constructor <;> linarith
  · rw [v1, v2]
    rw [abs_le] at *
    norm_num at q3 s3 c6' ⊢
    linarith

theorem facts {p : Nat} (hp1 : 4 ≤ p) (hp2 : p ≤ 18) {k : Nat} (hk : k < (rawTable p).length) :
    TableFacts p k := (vals hp1 hp2 hk).1

/-- Neighbouring table points. -/
theorem neighbours {p : Nat} (hp1 : 4 ≤ p) (hp2 : p ≤ 18) {k : Nat}
    (hk : k + 1 < (rawTable p).length) :
    1 / 10000 ≤ |rawV p (k + 1) - rawV p k| ∧
    rawV p k - biasV p k ≤ rawV p (k + 1) - biasV p (k + 1) + 1 / 2 ^ 29 ∧
    (p ≠ 5 → p ≠ 6 → rawV p k < rawV p (k + 1)) := by
  obtain ⟨_, a1, a2⟩ := vals hp1 hp2 (k := k) (by omega)
  obtain ⟨_, a3, a4⟩ := vals hp1 hp2 hk
  have hk1 : k + 1 < (Tables.rawL (p - 4)).length := by rw [rawL_length]; exact hk
  have hpr := Tables.pairsOkT_get (Tables.pairs_ok (p - 4) (by omega)) k hk1
  have hso : p ≠ 5 → p ≠ 6 → _ := fun h5 h6 =>
    Tables.pairsOkT_get ((Tables.sorted_ok (p - 4) (by omega)).trans
      (decide_eq_true (by omega))) k hk1
  simp only [Tables.pairOk, Tables.incOk, Bool.and_eq_true, decide_eq_true_eq] at hpr hso
  generalize Tables.sc ((Tables.rawL (p - 4)).getD k (0, 0)) = r at *
  generalize Tables.sc ((Tables.rawL (p - 4)).getD (k + 1) (0, 0)) = r' at *
  generalize Tables.sc ((Tables.biasL (p - 4)).getD k (0, 0)) = b at *
  generalize Tables.sc ((Tables.biasL (p - 4)).getD (k + 1) (0, 0)) = b' at *
  obtain ⟨c1, c2⟩ := hpr
  have c1' : (2 * 10 ^ 12 : ℚ) ≤ |(r' : ℚ) - r| := by exact_mod_cast c1
  have c2' : (r : ℚ) - b ≤ r' - b' := by exact_mod_cast c2
  have hgap : 1 / 10000 ≤ |rawV p (k + 1) - rawV p k| := by
    rw [abs_le] at a1 a3
    rw [le_abs] at c1' ⊢
    norm_num at a1 a3 c1' ⊢
    rcases c1' with h | h
    · left; linarith
    · right; linarith
  refine ⟨hgap, ?_, ?_⟩
  · rw [abs_le] at a1 a2 a3 a4
    norm_num at a1 a2 a3 a4 c2' ⊢
    linarith
  · intro h5 h6
    have c3 : (r : ℚ) < r' := by exact_mod_cast hso h5 h6
    rw [le_abs] at hgap
    rw [abs_le] at a1 a3
    norm_num at a1 a3 hgap ⊢
    rcases hgap with h | h
    · linarith
    · linarith

end Plus
end HLL
