import Verif.Proofs.LogFinal

/-!
# The rounded steps of the polynomial part of `src/log.rs`
-/

namespace HLL.Log
open F64 LogPoly

/-- The rounded polynomial part, step by step. -/
theorem kernel_steps {x : ℚ} (k : ℤ) (h1 : splitPoint / 2 ≤ x) (h2 : x < splitPoint)
    (h3 : ∃ n : ℤ, x = n * 2 ^ (-53 : ℤ)) {f s : ℚ} (hf : f = x - 1) (hs : s = f / (2 + f)) :
    ∃ (S W : F64) (sa Ra : ℚ), kernel (fin x) k =
        add (add (sub (add (mul S (add (mul (mul (ofDec 5 1) (fin f)) (fin f)) W)) (mul (ofInt k) LN2_LO))
          (mul (mul (ofDec 5 1) (fin f)) (fin f))) (fin f)) (mul (ofInt k) LN2_HI) ∧
      Is S sa ∧ Is W Ra ∧ |sa - s| ≤ 204 / 100 / 2 ^ 53 * |s| ∧
        |Ra - poly (s ^ 2)| ≤ 842 / 100 / 2 ^ 53 * poly (s ^ 2) := by
  obtain ⟨f1, f2, f3, f4, f5⟩ := f_facts h1 h2 h3
  rw [← hf] at f1 f2 f3 f4 f5
  obtain ⟨s1, s2⟩ := s_facts f3 f4
  rw [← hs] at s1 s2
  obtain ⟨c1, c2, c3, c4, c5, c6, c7, -, -⟩ := consts
  have d2 : ofDec 20 1 = fin 2 := by decide +kernel
  -- the parts
  have nf : Near (fin f) 0 53 0 f :=
    ⟨f, Or.inl rfl, f2, by simp, f5, by rw [pow_zero]; exact abs_le.2 ⟨by linarith, by linarith⟩⟩
  have n2f : Near (add (ofDec 20 1) (fin f)) (0 + 101 / 100) 0 2 (2 + f) := by
    refine near_rnd (a := 2 + f) (by norm_num) (by simp) (Or.inr ?_) ?_ (by norm_num) (by norm_num)
      (fun h => ?_)
    · rw [abs_of_pos (by linarith)]; norm_num; linarith
    · rw [abs_of_pos (by linarith)]; norm_num; linarith
    · rw [d2]; exact (Is.fin 2).add (Is.fin f) h
  have ns := nf.div n2f (by linarith) (by norm_num) (by norm_num) (by norm_num) (by norm_num)
    (by norm_num) (by norm_num)
  rw [← hs] at ns
  have nz := ns.mul ns (by norm_num) (by norm_num) (by norm_num) (by norm_num) (by norm_num)
    (by norm_num)
  have nw := nz.mul nz (by norm_num) (by norm_num) (by norm_num) (by norm_num) (by norm_num)
    (by norm_num)
  -- the coefficients
  have m1 : Near LG1 0 3 0 (6004799503160723 / 2 ^ 53) :=
    near_const _ c1 (by decide +kernel) (by decide +kernel) (by decide +kernel)
  have m2 : Near LG2 0 3 0 (7205759403686404 / 2 ^ 54) :=
    near_const _ c2 (by decide +kernel) (by decide +kernel) (by decide +kernel)
  have m3 : Near LG3 0 3 0 (5146971033736025 / 2 ^ 54) :=
    near_const _ c3 (by decide +kernel) (by decide +kernel) (by decide +kernel)
  have m4 : Near LG4 0 3 0 (8006390766270639 / 2 ^ 55) :=
    near_const _ c4 (by decide +kernel) (by decide +kernel) (by decide +kernel)
  have m5 : Near LG5 0 3 0 (6551322304906206 / 2 ^ 55) :=
    near_const _ c5 (by decide +kernel) (by decide +kernel) (by decide +kernel)
  have m6 : Near LG6 0 3 0 (5517391500461727 / 2 ^ 55) :=
    near_const _ c6 (by decide +kernel) (by decide +kernel) (by decide +kernel)
  have m7 : Near LG7 0 3 0 (5331612937900612 / 2 ^ 55) :=
    near_const _ c7 (by decide +kernel) (by decide +kernel) (by decide +kernel)
  have l1 : (6004799503160723 / 2 ^ 53 : ℚ) ≤ 67 / 100 ∧ (66 / 100 : ℚ) ≤ 6004799503160723 / 2 ^ 53 := by norm_num
  have l2 : (7205759403686404 / 2 ^ 54 : ℚ) ≤ 41 / 100 ∧ (39 / 100 : ℚ) ≤ 7205759403686404 / 2 ^ 54 := by norm_num
  have l3 : (5146971033736025 / 2 ^ 54 : ℚ) ≤ 29 / 100 ∧ (28 / 100 : ℚ) ≤ 5146971033736025 / 2 ^ 54 := by norm_num
  have l4 : (8006390766270639 / 2 ^ 55 : ℚ) ≤ 23 / 100 ∧ (22 / 100 : ℚ) ≤ 8006390766270639 / 2 ^ 55 := by norm_num
  have l5 : (6551322304906206 / 2 ^ 55 : ℚ) ≤ 19 / 100 ∧ (18 / 100 : ℚ) ≤ 6551322304906206 / 2 ^ 55 := by norm_num
  have l6 : (5517391500461727 / 2 ^ 55 : ℚ) ≤ 16 / 100 ∧ (15 / 100 : ℚ) ≤ 5517391500461727 / 2 ^ 55 := by norm_num
  have l7 : (5331612937900612 / 2 ^ 55 : ℚ) ≤ 15 / 100 ∧ (14 / 100 : ℚ) ≤ 5331612937900612 / 2 ^ 55 := by norm_num
  have hpoly : poly (s ^ 2) =
      s * s * (6004799503160723 / 2 ^ 53 + s * s * (s * s) * (5146971033736025 / 2 ^ 54 +
        s * s * (s * s) * (6551322304906206 / 2 ^ 55 + s * s * (s * s) * (5331612937900612 / 2 ^ 55)))) +
      s * s * (s * s) * (7205759403686404 / 2 ^ 54 + s * s * (s * s) * (8006390766270639 / 2 ^ 55 +
        s * s * (s * s) * (5517391500461727 / 2 ^ 55))) := by
    simp only [poly, lg, eval, Rat.cast_id]
    ring
  rw [hpoly]
  generalize (6004799503160723 / 2 ^ 53 : ℚ) = L1 at *
  generalize (7205759403686404 / 2 ^ 54 : ℚ) = L2 at *
  generalize (5146971033736025 / 2 ^ 54 : ℚ) = L3 at *
  generalize (8006390766270639 / 2 ^ 55 : ℚ) = L4 at *
  generalize (6551322304906206 / 2 ^ 55 : ℚ) = L5 at *
  generalize (5517391500461727 / 2 ^ 55 : ℚ) = L6 at *
  generalize (5331612937900612 / 2 ^ 55 : ℚ) = L7 at *
  have hz0 : 0 ≤ s * s := mul_self_nonneg s
  have hz1 : s * s ≤ 3 / 100 := by
    rw [← abs_mul_abs_self]
    calc |s| * |s| ≤ 1716 / 10000 * (1716 / 10000) :=
          mul_le_mul s1.le s1.le (abs_nonneg s) (by norm_num)
      _ ≤ _ := by norm_num
  generalize hz : s * s = z at *
  have hw0 : 0 ≤ z * z := mul_self_nonneg z
  have hw1 : z * z ≤ 9 / 10000 := by
    calc z * z ≤ 3 / 100 * (3 / 100) := mul_le_mul hz1 hz1 hz0 (by norm_num)
      _ ≤ _ := by norm_num
  have hwz : z * z ≤ 3 / 100 * z := mul_le_mul_of_nonneg_right hz1 hz0
  generalize hw : z * z = w at *
  -- t1
  have a6 := small_mul hw0 hw1 (A := L6) (by linarith) (by linarith)
  have q6 := nw.mul m6 (by norm_num) (by norm_num) (by norm_num) (by norm_num) (by norm_num) (by norm_num)
  have q4 := m4.add (1 / 10) q6 (by linarith) a6.1 (by linarith) (by norm_num) (by norm_num) (by norm_num)
  have a4 := small_mul hw0 hw1 (A := L4 + w * L6) (by linarith) (by linarith)
  have q4' := nw.mul q4 (by norm_num) (by norm_num) (by norm_num) (by norm_num) (by norm_num) (by norm_num)
  have q2 := m2.add (1 / 10) q4' (by linarith) a4.1 (by linarith) (by norm_num) (by norm_num) (by norm_num)
  have qt1 := nw.mul q2 (by norm_num) (by norm_num) (by norm_num) (by norm_num) (by norm_num) (by norm_num)
  -- t2
  have a7 := small_mul hw0 hw1 (A := L7) (by linarith) (by linarith)
  have q7 := nw.mul m7 (by norm_num) (by norm_num) (by norm_num) (by norm_num) (by norm_num) (by norm_num)
  have q5 := m5.add (1 / 10) q7 (by linarith) a7.1 (by linarith) (by norm_num) (by norm_num) (by norm_num)
  have a5 := small_mul hw0 hw1 (A := L5 + w * L7) (by linarith) (by linarith)
  have q5' := nw.mul q5 (by norm_num) (by norm_num) (by norm_num) (by norm_num) (by norm_num) (by norm_num)
  have q3 := m3.add (1 / 10) q5' (by linarith) a5.1 (by linarith) (by norm_num) (by norm_num) (by norm_num)
  have a3 := small_mul hw0 hw1 (A := L3 + w * (L5 + w * L7)) (by linarith) (by linarith)
  have q3' := nw.mul q3 (by norm_num) (by norm_num) (by norm_num) (by norm_num) (by norm_num) (by norm_num)
  have q1 := m1.add (1 / 10) q3' (by linarith) a3.1 (by linarith) (by norm_num) (by norm_num) (by norm_num)
  have qt2 := nz.mul q1 (by norm_num) (by norm_num) (by norm_num) (by norm_num) (by norm_num) (by norm_num)
  -- r
  have hB2 : 0 ≤ L2 + w * (L4 + w * L6) ∧ L2 + w * (L4 + w * L6) ≤ 1 / 2 := ⟨by linarith, by linarith⟩
  have hB1 : 66 / 100 ≤ L1 + w * (L3 + w * (L5 + w * L7)) := by linarith
  have t1n : 0 ≤ w * (L2 + w * (L4 + w * L6)) := mul_nonneg hw0 hB2.1
  have t1b : w * (L2 + w * (L4 + w * L6)) ≤ 3 / 100 * z * (1 / 2) :=
    mul_le_mul hwz hB2.2 hB2.1 (by linarith)
  have t2b : z * (66 / 100) ≤ z * (L1 + w * (L3 + w * (L5 + w * L7))) :=
    mul_le_mul_of_nonneg_left hB1 hz0
  have qr := qt2.add (74 / 10) qt1 (by linarith) t1n (by linarith) (by norm_num) (by norm_num) (by norm_num)
  obtain ⟨sa, i1, i2, i3, -, -⟩ := ns
  obtain ⟨Ra, j1, j2, j3, -, -⟩ := qr
  have hR0 : 0 ≤ z * (L1 + w * (L3 + w * (L5 + w * L7))) + w * (L2 + w * (L4 + w * L6)) := by linarith
  rw [abs_of_nonneg hR0] at j3
  refine ⟨_, _, sa, Ra, ?_, i1, j1, ?_, ?_⟩
  · rw [kernel]
    simp only [f1]
  · refine i3.trans (mul_le_mul_of_nonneg_right ?_ (abs_nonneg s))
    norm_num
  · refine j3.trans (mul_le_mul_of_nonneg_right ?_ hR0)
    norm_num

end HLL.Log
