import Verif.Proofs.BiasTables
import Verif.Props.RawAccuracy

/-!
# C54: the bias tables describe the mean of the raw estimate

As in C42 every assignment `h : Fin n → Fin (2^64)` of hashes to the values `0, …, n-1` is equally
likely, and `mean f` is the expectation of `f`.
-/

namespace HLL
open Spec F64 Exps Plus

variable {cfg : Cfg} {ln : F64 → F64} {ords : Nat → IterOrder × IterOrder} {p n : Nat}

/-- What C54 says about entry `k` of the tables of precision `p`: the raw estimate minus the bias is
a number `n` of values, and the raw estimate is near `α m² / μ`, where `μ` is the expectation of
`∑ 2^-M[j]` over the registers `M` of a sketch with `n` values. -/
structure EntryRight (cfg : Cfg) (ord : IterOrder) (p : Nat) (r b : ℚ) (n : Nat)
    (M : (Fin n → Fin (2 ^ 64)) → ℕ → ℕ) : Prop where
  /-- the number of values -/
  diff : |r - b - n| ≤ 1 / 2 ^ 28
  pos : 1 ≤ n
  le : n ≤ 5 * 2 ^ p
  /-- `M h` are the registers after inserting values with hashes `h` -/
  registers : ∀ h, ∃ s₀ s regs, emptyDense cfg p (builderOf h) = .ok s₀ ∧
    insertHashes cfg ord ((List.finRange n).map (builderOf h)) s₀ = .ok s ∧
    s.registers = some regs ∧ (regs.iter 6).map BitVec.toNat = (List.range (2 ^ p)).map (M h)
  /-- the raw estimate -/
  near : ∀ a : ℚ, alpha p = fin a →
    |r * mean (fun h => ∑ j ∈ Finset.range (2 ^ p), (1 / 2 : ℝ) ^ M h j) - a * (2 ^ p * 2 ^ p)| ≤
      (0.0018 + 3.2 / 2 ^ p) * (a * (2 ^ p * 2 ^ p))

theorem near_mean {r A x m a z : ℝ} (hm : 16 ≤ m) (hA : 0 ≤ A)
    (h1 : (1 - 1.5 / m) * x ≤ a) (h2 : a ≤ x) (hr : 0 ≤ r)
    (h3 : (1 - z) * A ≤ r * x) (h4 : r * x ≤ (1 + z) * A) (hz : 0 ≤ z) :
    |r * (m * a) - A * m| ≤ (z + 1.5 / m) * (A * m) := by
  have hm0 : 0 < m := by linarith
  have hw0 : 0 ≤ 1.5 / m := by positivity
  have hw : 1.5 / m ≤ 1 := by rw [div_le_one hm0]; norm_num; linarith
  generalize 1.5 / m = w at *
  have d1 : r * a ≤ (1 + z) * A := (mul_le_mul_of_nonneg_left h2 hr).trans h4
  have d2 : (1 - w) * ((1 - z) * A) ≤ r * a := by
    refine (mul_le_mul_of_nonneg_left h3 (by linarith)).trans ?_
    calc (1 - w) * (r * x) = r * ((1 - w) * x) := by ring
      _ ≤ r * a := mul_le_mul_of_nonneg_left h1 hr
  have d3 : (1 - z - w) * A ≤ r * a := by
    refine le_trans ?_ d2
    have := mul_nonneg (mul_nonneg hw0 hz) hA
    nlinarith
  have d4 : (1 + z) * A ≤ (1 + z + w) * A := mul_le_mul_of_nonneg_right (by linarith) hA
  rw [abs_le]
  constructor <;> nlinarith

/-- **C54.** For every precision `p` the two tables used by `estimate_bias` have the same number of
entries; every entry is right, and the numbers of values they belong to increase. -/
theorem C54_bias_tables (hcfg : cfg.usizeBits = 64) (ord : IterOrder) (h1 : 4 ≤ p) (h2 : p ≤ 18)
    {raws biases : List F64} (hr : raws = Constants.RAW_ESTIMATE_DATA.getD (p - 4) [])
    (hb : biases = Constants.BIAS_DATA.getD (p - 4) []) :
    ∃ N : ℕ → ℕ, raws.length = biases.length ∧ 79 ≤ raws.length ∧
      ∀ k < raws.length, ∃ r b : ℚ, raws.getD k nan = fin r ∧ biases.getD k nan = fin b ∧
        (∃ M, EntryRight cfg ord p r b (N k) M) ∧ (k + 1 < raws.length → N k < N (k + 1)) := by
  obtain rfl : raws = rawTable p := hr
  obtain rfl : biases = biasTable p := hb
  refine ⟨Plus.nodeT p, (table_lengths h1 h2).1, ?_, fun k hk => ?_⟩
  · have : ∀ i < 15, 79 ≤ (Tables.rawL i).length := by decide +kernel
    rw [← Plus.rawL_length]
    exact this _ (by omega)
  obtain ⟨t1, t2, t3, t4, t5⟩ := Plus.table_near h1 h2 hk
  have hf := Plus.facts h1 h2 hk
  refine ⟨Plus.rawV p k, Plus.biasV p k, hf.raw_eq, hf.bias_eq, ?_, fun hk' =>
    (Plus.nodeT_step h1 h2 hk').1⟩
  obtain ⟨M, m1, -, m3⟩ := C50_plus_registers (ln := id) (ords := fun _ => (IterOrder.id, IterOrder.id))
    hcfg (noCodec (Fin (Plus.nodeT p k))) h1 h2 ord
  refine ⟨M, t3, t1, t2, m1, fun a ha => ?_⟩
  obtain ⟨a1, a2, a3⟩ := alpha_facts h1 h2
  have haq : a = alphaQ p := by rw [a1] at ha; cases ha; rfl
  rw [m3.mean_eq, ← moment_half_eq, haq]
  obtain ⟨b1, b2⟩ := moment_half_bounds (w := 64) (p := p) (n := Plus.nodeT p k) (by omega) h2 (by omega)
    (by omega)
  have hm : (16 : ℝ) ≤ 2 ^ p := by
    calc (16 : ℝ) = 2 ^ 4 := by norm_num
      _ ≤ 2 ^ p := pow_le_pow_right₀ (by norm_num) h1
  have hα : (0 : ℝ) ≤ alphaQ p := by
    have : (0 : ℚ) ≤ alphaQ p := by linarith
    exact_mod_cast this
  have hr : (0 : ℝ) ≤ Plus.rawV p k := by
    have : (0 : ℚ) ≤ Plus.rawV p k := by linarith [hf.raw_ge]
    exact_mod_cast this
  have h := near_mean hm (mul_nonneg hα (by positivity : (0 : ℝ) ≤ 2 ^ p)) b1 b2 hr t4 t5
    (by unfold Plus.tol; positivity)
  rw [mul_assoc (alphaQ p : ℝ)] at h
  refine h.trans (le_of_eq ?_)
  unfold Plus.tol
  ring

/-- An instance: the entry 41921.1998 of the table for 16384 registers, with bias 961.1998, belongs
to 40960 values, whose mean raw estimate it gives within 0.2 %. -/
example (ord : IterOrder) : ∃ r b : ℚ,
    (Constants.RAW_ESTIMATE_DATA.getD 10 []).getD 100 nan = fin r ∧ |r - 41921.1998| ≤ 1 / 2 ^ 31 ∧
    (Constants.BIAS_DATA.getD 10 []).getD 100 nan = fin b ∧ |b - 961.1998| ≤ 1 / 2 ^ 30 ∧
    ∃ M, EntryRight Cfg.debug64 ord 14 r b 40960 M := by
  have hl : (rawTable 14).length = 201 := by
    rw [← Plus.rawL_length]
    decide +kernel
  obtain ⟨N, -, -, h⟩ := C54_bias_tables (cfg := Cfg.debug64) rfl ord (p := 14) (by norm_num)
    (by norm_num) rfl rfl
  obtain ⟨r, b, h1, h2, ⟨M, h3⟩, -⟩ := h 100 (by
    change 100 < (rawTable 14).length
    omega)
  obtain ⟨-, v1, v2⟩ := Plus.vals (p := 14) (k := 100) (by norm_num) (by norm_num) (by omega)
  have e1 : Plus.rawV 14 100 = r := by
    change (rawTable 14).getD 100 nan = fin r at h1
    rw [Plus.rawV, h1]; rfl
  have e2 : Plus.biasV 14 100 = b := by
    change (biasTable 14).getD 100 nan = fin b at h2
    rw [Plus.biasV, h2]; rfl
  have d1 : (Tables.rawL 10).getD 100 (0, 0) = (419211998, 4) := by decide +kernel
  have d2 : (Tables.biasL 10).getD 100 (0, 0) = (961199800000002, 12) := by decide +kernel
  rw [show 14 - 4 = 10 from rfl, d1, e1, Tables.sc] at v1
  rw [show 14 - 4 = 10 from rfl, d2, e2, Tables.sc] at v2
  have w1 : |r - 41921.1998| ≤ 1 / 2 ^ 31 := by norm_num at v1 ⊢; exact v1
  have w2 : |b - 961.1998| ≤ 1 / 2 ^ 30 := by
    rw [abs_le] at *
    norm_num at v2 ⊢
    constructor <;> linarith
  have hN : N 100 = 40960 := by
    have h4 := abs_le.1 h3.diff
    rw [abs_le] at w1 w2
    norm_num at h4 w1 w2
    have l1 : ((N 100 : ℕ) : ℚ) < 40961 := by linarith
    have l2 : (40959 : ℚ) < ((N 100 : ℕ) : ℚ) := by linarith
    have l1' : N 100 < 40961 := by exact_mod_cast l1
    have l2' : 40959 < N 100 := by exact_mod_cast l2
    omega
  refine ⟨r, b, h1, w1, h2, w2, ?_⟩
  rw [← hN]
  exact ⟨M, h3⟩

end HLL
