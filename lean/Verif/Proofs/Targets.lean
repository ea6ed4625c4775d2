import Verif.SpecTargets
import Verif.Props.Defs
import Verif.Proofs.Monotone
import Verif.Proofs.SetMachine

/-! # `count` on targets with a small `usize` -/

namespace HLL
open Spec F64

/-- The square of the number of registers does not fit in `usize`. -/
theorem mulUsize_wrap (cfg : Cfg) {p : Nat} (h : cfg.usizeBits ≤ 2 * p) :
    mulUsize cfg (2 ^ p) (2 ^ p) = if cfg.overflowChecks then .error .overflow else .ok 0 := by
  have h1 : ((2 ^ p : ℕ) : ℤ) * ((2 ^ p : ℕ) : ℤ) = 2 ^ cfg.usizeBits * 2 ^ (2 * p - cfg.usizeBits) := by
    push_cast
    rw [← pow_add, ← pow_add]
    congr 1
    omega
  have h2 : (2 : ℤ) ^ cfg.usizeBits ≤ 2 ^ cfg.usizeBits * 2 ^ (2 * p - cfg.usizeBits) := by
    have h3 : (1 : ℤ) ≤ 2 ^ (2 * p - cfg.usizeBits) := one_le_pow₀ (by norm_num)
    have h4 : (0 : ℤ) < 2 ^ cfg.usizeBits := by positivity
    nlinarith
  rw [mulUsize, ck, h1, if_neg (by rintro ⟨_, hc⟩; exact absurd hc (not_lt.2 h2)), Int.mul_emod_right]
  rfl

theorem estimateRawPlus_wrap (cfg : Cfg) {p : Nat} (hp1 : 4 ≤ p) (hp2 : p ≤ 18)
    (hcfg : cfg.usizeBits ≤ 2 * p) {L : List U32} 
    (hL : ∀ v ∈ L, v.toNat < if cfg.std then 64 else 32)
    (hR : Regs p (L.map BitVec.toNat)) :
    Common.estimateRawPlus cfg L (2 ^ p) =
      if cfg.overflowChecks then .error .overflow else .ok (num 0) := by
  have h0 : ofNat 0 = fin 0 := by rw [ofNat_eq (by norm_num)]; norm_num
  rw [Common.estimateRawPlus, terms_ok cfg hL, ok_bind, Common.finishRaw, mulUsize_wrap cfg hcfg]
  by_cases hc : cfg.overflowChecks
  · rw [if_pos hc, if_pos hc]; rfl
  · rw [if_neg hc, if_neg hc, ok_bind, h0, alpha_eq hp1 hp2]
    obtain ⟨ha, ha1, _⟩ := alpha_facts hp1 hp2
    have hb := hR.hsum_bounds hp2
    have hh := harmonic_eq (M := L.map BitVec.toNat) (by
      rw [hR.length]
      calc 2 ^ p ≤ 2 ^ 18 := Nat.pow_le_pow_right (by norm_num) hp2
        _ ≤ 2 ^ 53 := by norm_num)
    have hne : L.map BitVec.toNat ≠ [] := by
      intro h
      have h1 := hR.length
      rw [h, List.length_nil] at h1
      have h2 : 0 < 2 ^ p := by positivity
      omega
    rw [sumF_ok cfg hne, hh.1, ha]
    have hpos : 0 < hsum 0 (L.map BitVec.toNat) := lt_of_lt_of_le (by positivity) hb.2.1
    rw [mul_fin_nonneg (by linarith) le_rfl (by rw [mul_zero]; positivity), mul_zero, rnd_zero,
      div_fin_nonneg le_rfl hpos (by rw [zero_div]; positivity), zero_div, rnd_zero, num]
    norm_num

namespace Plus
variable {I : Type}

theorem correctedRaw_wrap (cfg : Cfg) (hcfg : 32 ≤ cfg.usizeBits) {p : Nat} (hp1 : 4 ≤ p) (hp2 : p ≤ 18)
    (hcfg2 : cfg.usizeBits ≤ 2 * p) {r : Registers} {S : Finset Nat}
    (hr : Registers.Rep 6 r (2 ^ p) (reg 64 p S)) :
    correctedRaw cfg p (2 ^ p) r =
      if cfg.overflowChecks then .error .overflow else .ok (sub (num 0) (biasOf cfg.search p (num 0))) := by
  have hS : Registers.GoodSize 6 := Or.inr rfl
  have h18 : 2 ^ p ≤ 2 ^ 18 := Nat.pow_le_pow_right (by norm_num) hp2
  have hM : Regs p ((r.iter 6).map BitVec.toNat) := by
    rw [hr.iter_eq hS]; exact regs_regs S (by omega)
  rw [correctedRaw, show SIZE = 6 from rfl, 
    estimateRawPlus_wrap { cfg with std := true } hp1 hp2 hcfg2 (hr.iter_lt' _ hS (Or.inr rfl)) hM]
  by_cases hc : cfg.overflowChecks
  · rw [if_pos hc, if_pos hc]; rfl
  · rw [if_neg hc, if_neg hc, ok_bind]
    have h5 : mul (ofNat 5) (ofNat (2 ^ p)) = num (5 * 2 ^ p) := by
      rw [ofNat_eq (by norm_num), ofNat_eq (by omega), exact_nat_mul (by omega)]; rfl
    have hle : le (num 0) (num (5 * 2 ^ p)) = true := by
      rw [num, num, le_fin]; positivity
    rw [h5, if_pos hle, estimateBias_eq cfg hcfg hp1 hp2 (by simp [num])]
    rfl

theorem countNormal_wrap (cfg : Cfg) (hcfg : 32 ≤ cfg.usizeBits) (ln : F64 → F64) {p : Nat}
    (hp1 : 4 ≤ p) (hp2 : p ≤ 18) (hcfg2 : cfg.usizeBits ≤ 2 * p) {r : Registers} {S : Finset Nat}
    (hr : Registers.Rep 6 r (2 ^ p) (reg 64 p S)) (hf : ¬ fitsSparse p S) :
    countNormal cfg ln p (2 ^ p) r =
      plusCountOn cfg.usizeBits cfg.overflowChecks ln (biasOf cfg.search) p S := by
  have h18 : 2 ^ p ≤ 2 ^ 18 := Nat.pow_le_pow_right (by norm_num) hp2
  have hz := hr.zeros_le
  rw [countNormal, correctedRaw_wrap cfg hcfg hp1 hp2 hcfg2 hr, threshold_ok hp1 hp2,
    linearCount_eq ln (by omega) (by omega), hr.zeros_count,
    show (List.range (2 ^ p)).map (reg 64 p S) = regs 64 p S from rfl, plusCountOn]
  simp only [ok_bind]
  rcases plusRegime_cases cfg.search ln hp1 hp2 S with ⟨a1, a2, _⟩ | ⟨a1, a2, a3, a4, a5⟩ | ⟨a1, a2, a3⟩
  · exact absurd a2 hf
  · rw [if_pos a3, if_pos a4, if_pos (Or.inr (by omega)), a5]; rfl
  · have h2 : ¬ (2 * p < cfg.usizeBits ∨ plusRegime ln p S ≤ 1) := by
      rcases a3 with ⟨a3, _⟩ | ⟨a3, _⟩ <;> omega
    rw [if_neg h2]
    by_cases h0 : (regs 64 p S).count 0 ≠ 0
    · rw [if_pos h0, if_neg (fun hl => a2 ⟨h0, hl⟩)]
    · rw [if_neg h0]

/-- `count` on any target: the specified estimate or the specified panic. -/
theorem count_on (cfg : Cfg) (hcfg : 32 ≤ cfg.usizeBits) (ln : F64 → F64) (ord : IterOrder) {p : Nat}
    {s : Plus I} {S : Finset Nat} (h : Rep p s S) :
    ∃ s', Flushed p s' S ∧ s'.builder = s.builder ∧
      count cfg ln ord s = (do
        let c ← plusCountOn cfg.usizeBits cfg.overflowChecks ln (biasOf cfg.search) p S
        pure (s', c)) := by
  by_cases h2 : ¬ fitsSparse p S → 2 * p < cfg.usizeBits
  · obtain ⟨s', h1, h3, h4⟩ := count_ok cfg hcfg ln ord h2 h
    refine ⟨s', h3, h4, ?_⟩
    rw [h1, plusCountOn, if_pos]
    · rfl
    · by_cases hf : fitsSparse p S
      · right
        rcases plusRegime_cases cfg.search ln h.1.hp1 h.1.hp2 S with ⟨a1, _⟩ | ⟨a1, _⟩ | ⟨a1, _⟩
        · omega
        · omega
        · exact absurd hf a1
      · exact Or.inl (h2 hf)
  · have hf : ¬ fitsSparse p S := fun hf => h2 fun h => absurd hf h
    have hb2 : cfg.usizeBits ≤ 2 * p := by
      by_contra hc; exact h2 fun _ => by omega
    obtain ⟨s', h1, h3, h4⟩ := flush_ok cfg hcfg ord h
    refine ⟨s', h3, h4, ?_⟩
    obtain ⟨hb, h3⟩ := h3
    have hun : count cfg ln ord s = flush cfg ord s >>= fun s' => (match s'.registers with
        | some registers => do
          let c ← countNormal cfg ln s'.precision s'.counts.1 registers
          pure (s', c)
        | none => do
          let zeros ← subUsize cfg s'.counts.2.1 s'.sparse.count
          pure (s', Common.linearCount ln s'.counts.2.1 zeros)) := rfl
    rw [hun, h1, ok_bind]
    rcases h3 with ⟨L, _, _, hf'⟩ | ⟨r, hd⟩
    · exact absurd hf' hf
    · rw [hd.regs, hb.counts, hb.prec]
      simp only
      rw [countNormal_wrap cfg hcfg ln hb.hp1 hb.hp2 hb2 hd.rep hf]

end Plus

namespace PF
variable {I : Type}

theorem estimate_on (cfg : Cfg) (ln : F64 → F64) {p : Nat} {s : PF I} {S : Finset Nat}
    (h : Rep p s S) :
    estimate cfg ln s = pfCountOn cfg.usizeBits cfg.overflowChecks ln p S := by
  rw [pfCountOn]
  by_cases h2 : 2 * p < cfg.usizeBits
  · rw [if_pos h2, estimate_ok cfg ln h2 h]
  · have hp1 := h.hp1
    have hp2 := h.hp2
    have hS : Registers.GoodSize 5 := Or.inl rfl
    have h16 : 2 ^ p ≤ 2 ^ 16 := Nat.pow_le_pow_right (by norm_num) hp2
    have hz := h.rep.zeros_le
    have hM : Regs p ((s.registers.iter 5).map BitVec.toNat) := by
      rw [h.rep.iter_eq hS]; exact regs_regs S (by omega)
    rw [if_neg h2, estimate, h.count, show SIZE = 5 from rfl,
      estimateRawPlus_wrap cfg hp1 (by omega) (by omega) (h.rep.iter_lt' cfg hS (Or.inl rfl)) hM]
    by_cases hc : cfg.overflowChecks
    · rw [if_pos hc, if_pos hc]; rfl
    · rw [if_neg hc, if_neg hc, ok_bind]
      simp only
      rw [shl_ok cfg _ (by norm_num), ok_bind, shl_one_toNat (by norm_num),
        linearCount_eq ln (by omega) (by omega), h.rep.zeros_count]
      have e1 : ofNat (2 ^ 32) = num (2 ^ 32) := ofNat_eq (by norm_num)
      have e2 : ofNat 30 = num 30 := ofNat_eq (by norm_num)
      have e3 : ofNat (2 ^ p) = num (2 ^ p) := ofNat_eq (by omega)
      rw [e1, e2, e3, show (List.range (2 ^ p)).map (reg 32 p S) = regs 32 p S from rfl,
        pf_threshold hp1 (by omega)]
      have hle : le (num 0) (fin (5 / 2 * 2 ^ p)) = true := by
        rw [num, le_fin]; push_cast; positivity
      obtain ⟨t, ht, ht1, _⟩ := pf_large
      have hgt : ¬ gt (num 0) (div (num (2 ^ 32)) (num 30)) = true := by
        rw [ht, num, gt_fin]; norm_num at ht1 ⊢; linarith
      by_cases h0 : (regs 32 p S).count 0 ≠ 0
      · rw [if_pos h0, if_pos ⟨hle, h0⟩]; rfl
      · rw [if_neg h0, if_neg (fun h => h0 h.2), if_neg hgt]; rfl

end PF

/-! ## Histories -/

section
variable {A I : Type}

/-- The set machine with a panicking `count`, as an interface. -/
def setApiOn (w maxP : Nat) (F : Nat → Finset Nat → R F64) : Api (Abs I) I :=
  { setApi w maxP (fun _ _ => nan) with
    count := fun _ s => do
      let c ← F s.p s.S
      pure (s, c) }

theorem step_setApiOn (w maxP : Nat) (F : Nat → Finset Nat → R F64) (o : IterOrder × IterOrder)
    (st : List (Abs I)) (op : Op I) :
    step (setApiOn w maxP F) o st op = (do
      let x ← observeOn maxP F st op
      pure (effect w maxP st op, x)) := by
  cases op with
  | count i =>
    simp only [step, effect, observeOn, setApiOn]
    cases hi : st[i]? with
    | none => rfl
    | some s =>
      simp only
      cases F s.p s.S with
      | error e => rfl
      | ok c => simp only [ok_bind, pure_eq_ok, set_self hi]
  | new p b => exact step_setApi w maxP (fun _ _ => nan) o st (.new p b)
  | clone i => exact step_setApi w maxP (fun _ _ => nan) o st (.clone i)
  | insert k i v => exact step_setApi w maxP (fun _ _ => nan) o st (.insert k i v)
  | merge i j => exact step_setApi w maxP (fun _ _ => nan) o st (.merge i j)
  | reload i => exact step_setApi w maxP (fun _ _ => nan) o st (.reload i)

theorem run_setApiOn (w maxP : Nat) (F : Nat → Finset Nat → R F64)
    (ords : Nat → IterOrder × IterOrder) : ∀ (ops : List (Op I)) (n : Nat) (st : List (Abs I)),
      run (setApiOn w maxP F) ords n st ops = (do
        let os ← expectedOn w maxP F st ops
        pure (contentsFrom w maxP st ops, os))
  | [], _, _ => rfl
  | op :: ops, n, st => by
    rw [run, step_setApiOn, expectedOn]
    cases observeOn maxP F st op with
    | error e => rfl
    | ok o =>
      simp only [ok_bind, pure_eq_ok]
      rw [run_setApiOn w maxP F ords ops]
      cases expectedOn w maxP F (effect w maxP st op) ops <;> rfl

theorem outputs_setApiOn (w maxP : Nat) (F : Nat → Finset Nat → R F64)
    (ords : Nat → IterOrder × IterOrder) (ops : List (Op I)) :
    outputs (setApiOn w maxP F) ords ops = expectedOn w maxP F [] ops := by
  rw [outputs, run_setApiOn]
  cases expectedOn w maxP F [] ops <;> rfl

/-- Reloads are only made with builders that round-trip. -/
def ReloadOk (c : Serde.Codec I) (rl : Prop) : Op I → Prop
  | .new _ b => rl → c.RoundTrips b
  | .reload _ => rl
  | _ => True

theorem simOn_plus (cfg : Cfg) (hcfg : 32 ≤ cfg.usizeBits) (ln : F64 → F64) (c : Serde.Codec I)
    (rl : Prop) :
    Sim (ReloadOk c rl) (Plus.api cfg ln c)
      (setApiOn 64 18 (plusCountOn cfg.usizeBits cfg.overflowChecks ln (Plus.biasOf cfg.search)))
      (fun s a => Plus.Rep a.p s a.S ∧ s.builder = a.builder ∧ (rl → c.RoundTrips a.builder)) where
  new p f hp := by
    by_cases hp' : 4 ≤ p ∧ p ≤ 18
    · obtain ⟨s, h1, h2, h3⟩ := Plus.new_ok cfg hcfg hp'.1 hp'.2 f
      simp only [Plus.api, setApiOn, setApi, h1, if_pos hp']
      exact ⟨h2.rep, h3, hp⟩
    · simp only [Plus.api, setApiOn, setApi, if_neg hp', Plus.new_error cfg (by omega : p < 4 ∨ 18 < p) f]
      rfl
  insert o o' k s t v h := by
    obtain ⟨h1, h2, h3⟩ := h
    obtain ⟨s', e1, e2, e3⟩ := Plus.insertHash_ok cfg hcfg o h1 (s.builder v)
    have e : (Plus.api cfg ln c).insert o k s v = .ok s' := by
      cases k <;> exact e1
    rw [e]
    refine ⟨?_, e3.trans h2, h3⟩
    rw [h2] at e2
    have := (t.builder v).isLt
    rw [show (t.builder v).toNat % 2 ^ 64 = (t.builder v).toNat from Nat.mod_eq_of_lt this]
    exact e2
  merge o₁ o₂ o₁' o₂' s t s' t' h h' := by
    obtain ⟨h1, h2, h3⟩ := h
    obtain ⟨h1', h2', h3'⟩ := h'
    by_cases hp : t.p = t'.p
    · rw [← hp] at h1'
      obtain ⟨s'', e1, e2, e3⟩ := Plus.merge_ok cfg hcfg o₁ o₂ h1 h1'
      simp only [Plus.api, setApiOn, setApi, if_pos hp, e1]
      exact ⟨⟨e2, e3.trans h2, h3⟩, rfl⟩
    · simp only [Plus.api, setApiOn, setApi, if_neg hp]
      rw [Plus.merge_error cfg o₁ o₂ (by rw [h1.1.prec, h1'.1.prec]; exact hp)]
      exact ⟨⟨h1, h2, h3⟩, rfl⟩
  count o o' s t h := by
    obtain ⟨h1, h2, h3⟩ := h
    obtain ⟨s', e2, e3, e1⟩ := Plus.count_on cfg hcfg ln o h1
    simp only [Plus.api, setApiOn, e1]
    cases plusCountOn cfg.usizeBits cfg.overflowChecks ln (Plus.biasOf cfg.search) t.p t.S with
    | error e => rfl
    | ok x => exact ⟨⟨e2.rep, e3.trans h2, h3⟩, rfl⟩
  reload i o o' s t hP h := by
    obtain ⟨h1, h2, h4⟩ := h
    obtain ⟨s', e1, e2, e3⟩ := Plus.reload_ok cfg hcfg o (h2 ▸ h4 hP) h1
    simp only [Plus.api, setApiOn, setApi, e1]
    exact .some ⟨e2, e3.trans h2, h4⟩

/-- The number of registers of new sketches fits in `usize`. -/
def NewFits (bits maxP : Nat) : Op I → Prop
  | .new p _ => p ≤ maxP → p < bits
  | _ => True

theorem simOn_pf (cfg : Cfg) (ln : F64 → F64) (c : Serde.Codec I) (rl : Prop) :
    Sim (fun op => ReloadOk c rl op ∧ NewFits cfg.usizeBits 16 op) (PF.api cfg ln c)
      (setApiOn 32 16 (pfCountOn cfg.usizeBits cfg.overflowChecks ln))
      (fun s a => PF.Rep a.p s a.S ∧ s.builder = a.builder ∧ a.p < cfg.usizeBits ∧
        (rl → c.RoundTrips a.builder)) where
  new p f hp := by
    by_cases hp' : 4 ≤ p ∧ p ≤ 16
    · obtain ⟨s, h1, h2, h3⟩ := PF.new_ok cfg (hp.2 hp'.2) hp'.1 hp'.2 f
      simp only [PF.api, setApiOn, setApi, h1, if_pos hp']
      exact ⟨h2, h3, hp.2 hp'.2, hp.1⟩
    · simp only [PF.api, setApiOn, setApi, if_neg hp', PF.new_error cfg (by omega : p < 4 ∨ 16 < p) f]
      rfl
  insert o o' k s t v h := by
    obtain ⟨h1, h2, h3⟩ := h
    obtain ⟨s', e1, e2, e3⟩ := PF.insertHash_ok cfg h3.1 h1 (s.builder v)
    have e : (PF.api cfg ln c).insert o k s v = .ok s' := by
      cases k <;> exact e1
    rw [e]
    refine ⟨?_, e3.trans h2, h3⟩
    rw [h2] at e2
    exact e2
  merge o₁ o₂ o₁' o₂' s t s' t' h h' := by
    obtain ⟨h1, h2, h3⟩ := h
    obtain ⟨h1', h2', h3'⟩ := h'
    by_cases hp : t.p = t'.p
    · rw [← hp] at h1'
      obtain ⟨s'', e1, e2, e3⟩ := PF.merge_ok cfg h3.1 h1 h1'
      simp only [PF.api, setApiOn, setApi, if_pos hp, e1]
      exact ⟨⟨e2, e3.trans h2, h3⟩, rfl⟩
    · simp only [PF.api, setApiOn, setApi, if_neg hp]
      rw [PF.merge_error cfg (by rw [h1.prec, h1'.prec]; exact hp)]
      exact ⟨⟨h1, h2, h3⟩, rfl⟩
  count o o' s t h := by
    obtain ⟨h1, h2, h3⟩ := h
    simp only [PF.api, setApiOn, PF.estimate_on cfg ln h1]
    cases pfCountOn cfg.usizeBits cfg.overflowChecks ln t.p t.S with
    | error e => rfl
    | ok x => exact ⟨⟨h1, h2, h3⟩, rfl⟩
  reload i o o' s t hP h := by
    obtain ⟨h1, h2, h3, h4⟩ := h
    simp only [PF.api, setApiOn, setApi, PF.reload_ok cfg h3 (h2 ▸ h4 hP.1) h1]
    exact .some ⟨h1, h2, h3, h4⟩

end
end HLL
