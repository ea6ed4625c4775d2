import Verif.Proofs.LnFree
import Verif.Props.Log
import Verif.Props.Monotone

/-!
# C73: the choice of the logarithm does not matter

`count` calls `f64::ln` with `std` and the crate's own logarithm without it; Rust does not specify the
result of `f64::ln` to the last bit, and it differs between platforms.  For any two logarithms within
`2^-40` of the true one, the same sketch uses the same estimator, and the two counts agree to `2^-38`.
The step from linear counting to the bias corrected estimate in `HyperLogLogPlus` compares the result of
the logarithm to a threshold; the theorem turns this comparison into one of integers.
-/

namespace HLL
open Spec F64

variable {I : Type} {cfg cfg' : Cfg} {ln ln' : F64 → F64} {c : Serde.Codec I}
  {ords ords' : Nat → IterOrder × IterOrder} {ops : List (Op I)} {i : Nat}

/-- **C73.** A `HyperLogLogPlus` in the dense representation uses linear counting exactly if at least
`cutoff p` of its registers are 0, whatever logarithm is used.  (`cutoff p`, in `Proofs/LnFree.lean`, is a
table of 15 integers.) -/
theorem C73_regime (hln : LnSpec ln) {p : Nat} (hp1 : 4 ≤ p) (hp2 : p ≤ 18) (S : Finset Nat) :
    plusRegime ln p S =
      if fitsSparse p S then 0
      else if cutoff p ≤ (regs 64 p S).count 0 then 1
      else if le (rawEstimate p (regs 64 p S)) (num (5 * 2 ^ p)) = true then 2
      else 3 := by
  have hV : (regs 64 p S).count 0 ≤ 2 ^ p := by
    have hM : Regs p (regs 64 p S) := regs_regs _ (by omega)
    rw [← hM.length]; exact List.count_le_length
  have hc := (log_cutoff hp1 hp2).1
  have : ((regs 64 p S).count 0 ≠ 0 ∧
      le (linear ln (2 ^ p) ((regs 64 p S).count 0)) (num (threshold p)) = true) ↔
      cutoff p ≤ (regs 64 p S).count 0 := by
    constructor
    · rintro ⟨h0, h1⟩
      exact (linear_le_threshold hln hp1 hp2 (Nat.pos_of_ne_zero h0) hV).1 h1
    · intro h
      exact ⟨by omega, (linear_le_threshold hln hp1 hp2 (by omega) hV).2 h⟩
  unfold plusRegime
  simp only [this]

/-- **C73.** The same history run with two logarithms (and two build profiles, pointer widths and hash set
orders): a `HyperLogLogPlus` uses the same estimator in both runs.  The counts agree to a relative `2^-38` where linear
counting is used, and are identical where it is not. -/
theorem C73_plus (hln : LnSpec ln) (hln' : LnSpec ln') (h : Supported cfg c ops) (h' : Supported cfg' c ops)
    (hs : cfg.search = cfg'.search) {a : Abs I} (ha : (contents 64 18 ops)[i]? = some a) :
    plusRegime ln a.p a.S = plusRegime ln' a.p a.S ∧
    ∃ x x' : F64, later (Plus.api cfg ln c) ords ops [.count i] = .ok [.count x] ∧
      later (Plus.api cfg' ln' c) ords' ops [.count i] = .ok [.count x'] ∧
      (plusRegime ln a.p a.S ≤ 1 → ∃ y y' : ℚ, x = fin y ∧ x' = fin y' ∧ |y - y'| ≤ y / 2 ^ 38) ∧
      (2 ≤ plusRegime ln a.p a.S → x = x') := by
  obtain ⟨hp1, hp2, _⟩ := contents_valid _ _ _ a (mem_of_get ha)
  have h18 : 2 ^ a.p ≤ 2 ^ 18 := Nat.pow_le_pow_right (by norm_num) hp2
  have hreg : plusRegime ln a.p a.S = plusRegime ln' a.p a.S := by
    rw [C73_regime hln hp1 hp2, C73_regime hln' hp1 hp2]
  refine ⟨hreg, _, _, plus_count_val h ha, plus_count_val h' ha, fun hr => ?_, fun hr => ?_⟩
  · rw [← hs]
    rcases plusRegime_cases cfg.search ln hp1 hp2 a.S with ⟨r, f, e⟩ | ⟨r, f, v, _, e⟩ | ⟨_, _, ⟨r, _⟩ | ⟨r, _⟩⟩
    · rcases plusRegime_cases cfg.search ln' hp1 hp2 a.S with ⟨r', f', e'⟩ | ⟨r', _⟩ | ⟨_, _, ⟨r', _⟩ | ⟨r', _⟩⟩ <;>
        try omega
      rw [e, e']
      have h1 := card_le_encSize (codes a.p a.S)
      have h2 := capacity_le hp2
      unfold fitsSparse at f
      exact linear_agree hln hln' (by omega) (by omega) le_rfl
    · rcases plusRegime_cases cfg.search ln' hp1 hp2 a.S with ⟨r', _⟩ | ⟨r', _, _, _, e'⟩ | ⟨_, _, ⟨r', _⟩ | ⟨r', _⟩⟩ <;>
        try omega
      rw [e, e']
      have hV : (regs 64 a.p a.S).count 0 ≤ 2 ^ a.p := by
        have hM : Regs a.p (regs 64 a.p a.S) := regs_regs _ (by omega)
        rw [← hM.length]; exact List.count_le_length
      exact linear_agree hln hln' (Nat.pos_of_ne_zero v) hV (by omega)
    · omega
    · omega
  · rw [← hs]
    rcases plusRegime_cases cfg.search ln hp1 hp2 a.S with ⟨r, _⟩ | ⟨r, _⟩ | ⟨_, _, ⟨r, _, e⟩ | ⟨r, _, e⟩⟩
    · omega
    · omega
    all_goals
      rcases plusRegime_cases cfg.search ln' hp1 hp2 a.S with ⟨r', _⟩ | ⟨r', _⟩ | ⟨_, _, ⟨r', _, e'⟩ | ⟨r', _, e'⟩⟩ <;>
        try omega
      rw [e, e']

/-- **C73.** The same for `HyperLogLogPF`: both counts are finite and agree to a relative `2^-38`, or they
are identical (which includes the infinity and the NaNs of the large range correction).  They are identical
whenever the raw estimate is used. -/
theorem C73_pf (hln : LnSpec ln) (hln' : LnSpec ln') (h : Supported cfg c ops) (h' : Supported cfg' c ops)
    {a : Abs I} (ha : (contents 32 16 ops)[i]? = some a) :
    ∃ x x' : F64, later (PF.api cfg ln c) ords ops [.count i] = .ok [.count x] ∧
      later (PF.api cfg' ln' c) ords' ops [.count i] = .ok [.count x'] ∧
      ((∃ y y' : ℚ, x = fin y ∧ x' = fin y' ∧ |y - y'| ≤ y / 2 ^ 38) ∨ x = x') ∧
      (pfRegime a.p a.S = 2 → x = x') := by
  obtain ⟨hp1, hp2, _⟩ := contents_valid _ _ _ a (mem_of_get ha)
  have h16 : 2 ^ a.p ≤ 2 ^ 16 := Nat.pow_le_pow_right (by norm_num) hp2
  refine ⟨_, _, pf_count_val h ha, pf_count_val h' ha, ?_⟩
  have hM : Regs a.p (regs 32 a.p a.S) := regs_regs _ (by omega)
  rcases pfRegime_cases ln hp1 hp2 a.S with ⟨r, _, v, e⟩ | ⟨_, ⟨r, _, e⟩ | ⟨r, g, e⟩⟩
  · rcases pfRegime_cases ln' hp1 hp2 a.S with ⟨r', _, _, e'⟩ | ⟨_, ⟨r', _⟩ | ⟨r', _⟩⟩ <;> try omega
    have hV : (regs 32 a.p a.S).count 0 ≤ 2 ^ a.p := by rw [← hM.length]; exact List.count_le_length
    refine ⟨Or.inl ?_, by omega⟩
    rw [e, e']
    exact linear_agree hln hln' (Nat.pos_of_ne_zero v) hV (by omega)
  · rcases pfRegime_cases ln' hp1 hp2 a.S with ⟨r', _⟩ | ⟨_, ⟨r', _, e'⟩ | ⟨r', _⟩⟩ <;> try omega
    rw [e, e']
    exact ⟨Or.inr rfl, fun _ => rfl⟩
  · rcases pfRegime_cases ln' hp1 hp2 a.S with ⟨r', _⟩ | ⟨_, ⟨r', _⟩ | ⟨r', _, e'⟩⟩ <;> try omega
    refine ⟨?_, by omega⟩
    obtain ⟨t, ht, ht1, _⟩ := pf_large
    rw [ht, gt_fin] at g
    have hrr : rnd (rawQ a.p (hsum 0 (regs 32 a.p a.S))) = rawQ a.p (hsum 0 (regs 32 a.p a.S)) := rnd_rnd _
    have hb := (hM.raw_bounds hp1 (by omega)).2
    rw [e, e']
    generalize rawQ a.p (hsum 0 (regs 32 a.p a.S)) = q at *
    rcases lt_trichotomy q (2 ^ 32) with hq | hq | hq
    · exact Or.inl (largeRange_agree hln hln' hrr (by linarith) hq)
    · right
      rw [(largeRange hln hrr (by linarith) hb).2.1 hq, (largeRange hln' hrr (by linarith) hb).2.1 hq]
    · right
      rw [(largeRange hln hrr (by linarith) hb).2.2 hq, (largeRange hln' hrr (by linarith) hb).2.2 hq]

/-- **C73.** In particular a `HyperLogLogPF` of a build without `std`, which uses the crate's own
logarithm, agrees with the same sketch in a build with `std`. -/
theorem C73_pf_no_std (hln : LnSpec ln) (h : Supported cfg c ops) (h' : Supported cfg' c ops)
    {a : Abs I} (ha : (contents 32 16 ops)[i]? = some a) :
    ∃ x x' : F64, later (PF.api cfg ln c) ords ops [.count i] = .ok [.count x] ∧
      later (PF.api cfg' (crateLn cfg') c) ords' ops [.count i] = .ok [.count x'] ∧
      ((∃ y y' : ℚ, x = fin y ∧ x' = fin y' ∧ |y - y'| ≤ y / 2 ^ 38) ∨ x = x') := by
  obtain ⟨x, x', h1, h2, h3, _⟩ := C73_pf hln (C37_lnSpec cfg') h h' ha
  exact ⟨x, x', h1, h2, h3⟩

/-- Two logarithms that meet `LnSpec`: the correctly rounded one and the crate's. -/
example : LnSpec lnRound ∧ LnSpec (crateLn Cfg.debug64) := ⟨lnRound_spec, C37_lnSpec _⟩

/-- The step from linear counting to the bias corrected estimate at precision 4: nine empty registers are
`cutoff 4`, eight are below it. -/
example : ∃ a b, (contents 64 18 (stepPlus 7))[0]? = some a ∧ (contents 64 18 (stepPlus 8))[0]? = some b ∧
    plusRegime (crateLn Cfg.debug64) a.p a.S = 1 ∧ plusRegime (crateLn Cfg.debug64) b.p b.S = 2 := by
  obtain ⟨a, ha, hap, haM, haf⟩ := stepPlus_contents 7 (Or.inl rfl)
  obtain ⟨b, hb, hbp, hbM, hbf⟩ := stepPlus_contents 8 (Or.inr rfl)
  refine ⟨a, b, ha, hb, ?_, ?_⟩
  · rw [hap, C73_regime (C37_lnSpec _) (by norm_num) (by norm_num), if_neg haf, haM, if_pos (by decide)]
  · rw [hbp, C73_regime (C37_lnSpec _) (by norm_num) (by norm_num), if_neg hbf, hbM, if_neg (by decide),
      if_pos (by decide +kernel)]

example : Supported Cfg.debug64 (noCodec Nat) (stepPlus 7) ∧
    Supported { Cfg.debug64 with overflowChecks := false } (noCodec Nat) (stepPlus 7) :=
  ⟨supported_stepPlus 7, supported64 rfl _ (by simp [stepPlus])⟩

example : Supported Cfg.debug64 (noCodec Nat) demoPF ∧
    Supported { Cfg.debug64 with std := false } (noCodec Nat) demoPF ∧
    ∃ a, (contents 32 16 demoPF)[0]? = some a ∧ pfRegime a.p a.S = 1 :=
  ⟨supported64 rfl _ (by simp [demoPF]), supported64 rfl _ (by simp [demoPF]), _, rfl, by decide +kernel⟩

end HLL
