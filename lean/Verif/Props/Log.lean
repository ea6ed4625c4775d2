import Verif.Proofs.LogFinal
import Verif.Proofs.BitsInv
import Verif.Props.Numeric

/-!
# The logarithm used without `std`: C37

`b` ranges over all 64-bit patterns, so `fromBits b` over all arguments of type `f64`, including
subnormal numbers and every NaN.  `cfg` is arbitrary: the theorems hold with and without overflow
checks.
-/

namespace HLL
open F64 Log LogPoly

/-- **C37.** Special cases: `log(±0) = -∞`, `log(1) = 0`, `log(+∞) = +∞`, `log(-∞)` is NaN, and so
is `log` of NaN and of every negative number. -/
theorem C37_special_cases (cfg : Cfg) (b : U64) :
    (∀ nb, log cfg nb (fin 0) = .ok (inf true)) ∧ (∀ nb, log cfg nb negZero = .ok (inf true)) ∧
    (∀ nb, log cfg nb (fin 1) = .ok (fin 0)) ∧ (∀ nb, log cfg nb (inf false) = .ok (inf false)) ∧
    (∀ nb, log cfg nb (inf true) = .ok nan) ∧ (fromBits b = nan → log cfg b nan = .ok nan) ∧
    (∀ q : ℚ, fromBits b = fin q → q < 0 → log cfg b (fin q) = .ok nan) := by
  refine ⟨log_zero cfg, log_negZero cfg, log_one cfg, log_inf cfg, log_neg_inf cfg, ?_, ?_⟩
  · intro h
    rcases fromBits_cases b with ⟨_, h1⟩ | ⟨s, h1, _⟩ | ⟨h1, _⟩ | ⟨h1, _⟩ | ⟨q, h1, _⟩
    · exact log_nan cfg h1
    all_goals rw [h] at h1; cases h1
  · intro q h hq
    rcases fromBits_cases b with ⟨h1, _⟩ | ⟨s, h1, _⟩ | ⟨h1, _⟩ | ⟨h1, _⟩ | ⟨q', h1, _, h2, h3, _⟩
    · rw [h] at h1; cases h1
    · rw [h] at h1; cases h1
    · rw [h] at h1; cases h1
    · rw [h] at h1; cases h1; exact absurd hq (lt_irrefl _)
    · rw [h] at h1; cases h1
      exact log_neg cfg b h2 hq (by rw [abs_of_neg hq] at h3; linarith)

/-- Bit patterns of a NaN and of a negative subnormal number. -/
example : fromBits 0xfff0000000000001#64 = nan ∧
    ∃ q : ℚ, fromBits 0x8000000000000001#64 = fin q ∧ q < 0 :=
  ⟨by decide +kernel, -2 ^ (-1074 : ℤ), by decide +kernel, by decide +kernel⟩

/-- Positive doubles, for use below. -/
theorem double_of_bits {b : U64} {q : ℚ} (hb : fromBits b = fin q) (h0 : 0 < q) :
    rnd q = q ∧ q < 2 ^ 1024 := by
  rcases fromBits_cases b with ⟨h1, _⟩ | ⟨s, h1, _⟩ | ⟨h1, _⟩ | ⟨h1, _⟩ | ⟨q', h1, _, h2, h3, _⟩
  · rw [hb] at h1; cases h1
  · rw [hb] at h1; cases h1
  · rw [hb] at h1; cases h1
  · rw [hb] at h1; cases h1; exact absurd h0 (lt_irrefl _)
  · rw [hb] at h1; cases h1
    exact ⟨h2, by rwa [abs_of_pos h0] at h3⟩

/-- **C37.** On positive numbers other than 1 the argument is rewritten, without any rounding, as
`2^k · x`, where `x` lies between `√2/2` and `√2` up to `2^-20` (the code compares only the upper
word of `x`), and the polynomial is evaluated at `x`. -/
theorem C37_reduction (cfg : Cfg) {b : U64} {q : ℚ} (hb : fromBits b = fin q) (h0 : 0 < q)
    (h1 : q ≠ 1) :
    ∃ (x : ℚ) (k : ℤ), log cfg b (fin q) = .ok (kernel (fin x) k) ∧ q = 2 ^ k * x ∧
      √2 / 2 - 1 / 2 ^ 20 ≤ x ∧ (x : ℝ) < √2 := by
  obtain ⟨hq, h2⟩ := double_of_bits hb h0
  obtain ⟨x, k, a1, a2, a3, a4, -⟩ := log_pos cfg b hq h0 h2 h1
  have hs1 : √2 - 1 / 2 ^ 20 ≤ ((splitPoint : ℚ) : ℝ) := by
    rw [sub_le_iff_le_add]
    apply Real.sqrt_le_iff.2
    constructor
    · unfold splitPoint; norm_num
    · unfold splitPoint; norm_num
  have hs2 : ((splitPoint : ℚ) : ℝ) < √2 := by
    apply Real.lt_sqrt_of_sq_lt
    unfold splitPoint; norm_num
  have a3' : ((splitPoint : ℚ) : ℝ) / 2 ≤ x := by
    have := (Rat.cast_le (K := ℝ)).2 a3
    push_cast at this; exact this
  have a4' : (x : ℝ) < ((splitPoint : ℚ) : ℝ) := by exact_mod_cast a4
  refine ⟨x, k, a1, a2, ?_, a4'.trans hs2⟩
  norm_num at hs1 ⊢
  linarith

/-- **C37.** The function never panics, and on positive numbers its relative error is at most
`6 · 2^-53`: less than `2^-50`. -/
theorem C37_accurate (cfg : Cfg) {b : U64} {q : ℚ} (hb : fromBits b = fin q) (h0 : 0 < q) :
    ∃ y : ℚ, log cfg b (fin q) = .ok (fin y) ∧
      |(y : ℝ) - Real.log q| ≤ 6 / 2 ^ 53 * |Real.log q| := by
  obtain ⟨hq, h2⟩ := double_of_bits hb h0
  obtain ⟨y, a1, _, a2⟩ := log_accurate cfg b hq h0 h2
  exact ⟨y, a1, a2⟩

/-- A subnormal number, a large number and a number next to 1 to which the theorems apply. -/
example : (∃ q : ℚ, fromBits 0x0000000000000001#64 = fin q ∧ 0 < q ∧ q ≠ 1) ∧
    (∃ q : ℚ, fromBits 0x7fefffffffffffff#64 = fin q ∧ 0 < q ∧ q ≠ 1) ∧
    ∃ q : ℚ, fromBits 0x3ff0000000000001#64 = fin q ∧ 0 < q ∧ q ≠ 1 :=
  ⟨⟨2 ^ (-1074 : ℤ), by decide +kernel, by decide +kernel, by decide +kernel⟩,
   ⟨(2 ^ 53 - 1) * 2 ^ 971, by decide +kernel, by decide +kernel, by decide +kernel⟩,
   ⟨1 + 1 / 2 ^ 52, by decide +kernel, by decide +kernel, by decide +kernel⟩⟩

/-- **C37.** The result is zero only at 1. -/
theorem C37_zero_iff (cfg : Cfg) (b : U64) : log cfg b (fromBits b) = .ok (fin 0) ↔ fromBits b = fin 1 := by
  constructor
  · intro h
    rcases fromBits_cases b with ⟨h1, h2⟩ | ⟨s, h1, _⟩ | ⟨h1, _⟩ | ⟨h1, _⟩ | ⟨q, h1, h2, h3, h4, _⟩
    · rw [h1, log_nan cfg h2] at h; cases h
    · rw [h1] at h
      cases s
      · rw [log_inf] at h; cases h
      · rw [log_neg_inf] at h; cases h
    · rw [h1, log_negZero] at h; cases h
    · rw [h1, log_zero] at h; cases h
    · rw [h1] at h ⊢
      rcases lt_or_gt_of_ne h2 with hq | hq
      · rw [log_neg cfg b h3 hq (by rw [abs_of_neg hq] at h4; linarith)] at h; cases h
      · rw [abs_of_pos hq] at h4
        obtain ⟨y, a1, _, a2⟩ := log_accurate cfg b h3 hq h4
        rw [a1] at h
        cases h
        rw [Rat.cast_zero, zero_sub, abs_neg] at a2
        have a3 : |Real.log q| = 0 := by
          have := abs_nonneg (Real.log q)
          norm_num at a2
          linarith
        by_contra hne
        exact Real.log_ne_zero_of_pos_of_ne_one (by exact_mod_cast hq)
          (by intro e; apply hne; rw [show q = 1 by exact_mod_cast e]) (abs_eq_zero.1 a3)
  · intro h
    rw [h, log_one]

/-- **C37.** No argument makes the function panic. -/
theorem C37_never_panics (cfg : Cfg) (b : U64) : ∃ y, log cfg b (fromBits b) = .ok y := by
  rcases fromBits_cases b with ⟨h1, h2⟩ | ⟨s, h1, _⟩ | ⟨h1, _⟩ | ⟨h1, _⟩ | ⟨q, h1, h2, h3, h4, _⟩
  · rw [h1, log_nan cfg h2]; exact ⟨_, rfl⟩
  · rw [h1]
    cases s
    · rw [log_inf]; exact ⟨_, rfl⟩
    · rw [log_neg_inf]; exact ⟨_, rfl⟩
  · rw [h1, log_negZero]; exact ⟨_, rfl⟩
  · rw [h1, log_zero]; exact ⟨_, rfl⟩
  · rw [h1]
    rcases lt_or_gt_of_ne h2 with hq | hq
    · rw [log_neg cfg b h3 hq (by rw [abs_of_neg hq] at h4; linarith)]; exact ⟨_, rfl⟩
    · rw [abs_of_pos hq] at h4
      obtain ⟨y, a1, _⟩ := log_accurate cfg b h3 hq h4
      exact ⟨_, a1⟩

/-- **C37.** The claim in the header of the file: the polynomial differs from the function `R` it
approximates by at most `2^-58.45`.  Here `R(s²) = (ln(1+s) - ln(1-s))/s - 2`, and the coefficients
are the doubles the decimal constants stand for. -/
theorem C37_polynomial {s : ℝ} (hs : |s| < 1716 / 10000) (h0 : s ≠ 0) :
    |poly (s ^ 2) - ((Real.log (1 + s) - Real.log (1 - s)) / s - 2)| ≤ 2 ^ (-(58.45 : ℝ)) :=
  poly_err_two_pow hs h0

/-- **C37.** The decimal constants are the doubles given in the comments beside them, and the
coefficients of the polynomial in the previous theorem. -/
theorem C37_constants :
    LN2_HI = fromBits 0x3fe62e42fee00000#64 ∧ LN2_LO = fromBits 0x3dea39ef35793c76#64 ∧
    LG1 = fromBits 0x3FE5555555555593#64 ∧ LG2 = fromBits 0x3FD999999997FA04#64 ∧
    LG3 = fromBits 0x3FD2492494229359#64 ∧ LG4 = fromBits 0x3FCC71C51D8E78AF#64 ∧
    LG5 = fromBits 0x3FC7466496CB03DE#64 ∧ LG6 = fromBits 0x3FC39A09D078C69F#64 ∧
    LG7 = fromBits 0x3FC2F112DF3E5244#64 ∧
    [LG1, LG2, LG3, LG4, LG5, LG6, LG7] = lg.map fin := by
  decide +kernel

/-- The crate's logarithm as a function. -/
def crateLn (cfg : Cfg) (x : F64) : F64 :=
  match log cfg 0x7ff8000000000000#64 x with
  | .ok y => y
  | .error _ => nan

/-- **C37.** The crate's logarithm meets the assumption made about `f64::ln` in the theorems about
`count`, which therefore hold without any assumption for `HyperLogLogPF` built without `std`. -/
theorem C37_lnSpec (cfg : Cfg) : LnSpec (crateLn cfg) where
  pos q hq h0 h1 := by
    obtain ⟨y, a1, _, a2⟩ := log_accurate cfg 0x7ff8000000000000#64 hq h0 h1
    refine ⟨y, by rw [crateLn, a1], a2.trans ?_⟩
    have := abs_nonneg (Real.log q)
    norm_num
    linarith
  zero := by rw [crateLn, log_zero]
  neg q hq h0 h1 := by rw [crateLn, log_neg cfg _ hq h0 h1]

open Spec

variable {I : Type} {c : Serde.Codec I} {ords : Nat → IterOrder × IterOrder} {ops : List (Op I)} {i : Nat}

/-- C27 for a build without `std`, as an instance without any assumption on the logarithm
(`HyperLogLogPF` is the only sketch of such a build): `count` is finite and not negative as long as the
raw estimate is below `2^32`. -/
theorem C37_no_std_count {cfg : Cfg} (h : Supported cfg c ops) {a : Abs I}
    (ha : (contents 32 16 ops)[i]? = some a) {raw : ℚ}
    (hraw : rawEstimate a.p (regs 32 a.p a.S) = fin raw) (hlt : raw < 2 ^ 32) :
    ∃ y : ℚ, later (PF.api cfg (crateLn cfg) c) ords ops [.count i] = .ok [.count (fin y)] ∧ 0 ≤ y := by
  obtain ⟨raw', h1, h2, _⟩ := C27_pf_value (ords := ords) (C37_lnSpec cfg) h ha
  rw [hraw] at h1
  cases h1
  exact h2 hlt

example : ∃ a, (contents 32 16 demoPF)[0]? = some a ∧ ∃ raw : ℚ,
    rawEstimate a.p (regs 32 a.p a.S) = fin raw ∧ raw < 2 ^ 32 :=
  ⟨_, rfl, (rawEstimate 4 (regs 32 4 ((contents 32 16 demoPF).getD 0 ⟨fun _ => 0, 4, ∅⟩).S)).val,
    by decide +kernel, by decide +kernel⟩

end HLL
