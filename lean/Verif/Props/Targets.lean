import Verif.Proofs.Targets
import Verif.Props.Numeric

/-!
# Targets with a 32-bit `usize`: C28

The property is false for the code: `count * count` does not fit in a 32-bit `usize` from precision 16
on.  The theorems describe what happens on every target with at least 32 bits, say for which programs
the results are the same as on 64-bit targets, and give programs for which they are not.
-/

namespace HLL
open Spec F64

variable {I : Type} {cfg : Cfg} {ln : F64 → F64} {c : Serde.Codec I}
  {ords : Nat → IterOrder × IterOrder} {ops : List (Op I)} {i : Nat}

/-- If the program reloads sketches then its builders survive serialisation. -/
def ReloadsOk (c : Serde.Codec I) (ops : List (Op I)) : Prop :=
  (∃ i, Op.reload i ∈ ops) → ∀ p b, Op.new p b ∈ ops → c.RoundTrips b

theorem ReloadsOk.all (h : ReloadsOk c ops) : ∀ op ∈ ops, ReloadOk c (∃ i, Op.reload i ∈ ops) op := by
  intro op hop
  cases op with
  | new p b => exact fun hr => h hr p b hop
  | reload i => exact ⟨i, hop⟩
  | _ => trivial

/-- **C28, complete description.** On every target with at least 32 bits every program behaves as the
set machine whose `count` is `plusCountOn`; nothing but `count` can panic. -/
theorem C28_plus_description (hb : 32 ≤ cfg.usizeBits) (hr : ReloadsOk c ops) :
    outputs (Plus.api cfg ln c) ords ops =
      expectedOn 64 18 (plusCountOn cfg.usizeBits cfg.overflowChecks ln (Plus.biasOf cfg.search)) [] ops := by
  rw [(simOn_plus cfg hb ln c _).outputs ords ords ops hr.all, outputs_setApiOn]

/-- `HyperLogLogPF` on targets of any width, for precisions below that width. -/
theorem pf_description (hb : ∀ op ∈ ops, NewFits cfg.usizeBits 16 op) (hr : ReloadsOk c ops) :
    outputs (PF.api cfg ln c) ords ops =
      expectedOn 32 16 (pfCountOn cfg.usizeBits cfg.overflowChecks ln) [] ops := by
  rw [(simOn_pf cfg ln c _).outputs ords ords ops fun op h => ⟨hr.all op h, hb op h⟩, outputs_setApiOn]

theorem newFits_of_wide {bits maxP : Nat} (h : maxP < bits) (op : Op I) : NewFits bits maxP op := by
  cases op with
  | new p b => exact fun _ => by omega
  | _ => trivial

/-- **C28, complete description** for `HyperLogLogPF`. -/
theorem C28_pf_description (hb : 32 ≤ cfg.usizeBits) (hr : ReloadsOk c ops) :
    outputs (PF.api cfg ln c) ords ops =
      expectedOn 32 16 (pfCountOn cfg.usizeBits cfg.overflowChecks ln) [] ops :=
  pf_description (fun op _ => newFits_of_wide (by omega) op) hr

/-! ## Programs that behave as on 64-bit targets -/

theorem expectedOn_congr (w maxP : Nat) {F G : Nat → Finset Nat → R F64} :
    ∀ (ops : List (Op I)) (st : List (Abs I)),
      (∀ pre i post, ops = pre ++ .count i :: post → ∀ a, (contentsFrom w maxP st pre)[i]? = some a →
        F a.p a.S = G a.p a.S) →
      expectedOn w maxP F st ops = expectedOn w maxP G st ops
  | [], _, _ => rfl
  | op :: ops, st, h => by
    have h1 : observeOn maxP F st op = observeOn maxP G st op := by
      cases op with
      | count i =>
        simp only [observeOn]
        cases hi : st[i]? with
        | none => rfl
        | some a => simp only; rw [h [] i ops rfl a hi]
      | _ => rfl
    rw [expectedOn, expectedOn, h1, expectedOn_congr w maxP ops _ (fun pre i post e a ha =>
      h (op :: pre) i post (by rw [e]; rfl) a ha)]

/-- **C28, restricted.** A program gives the same results as on a 64-bit target if each `count` is
made on a sketch with `2 p < usizeBits`, or on one that is sparse or in the linear counting range.
Missing for the full claim: the other sketches, for which it is false (`C28_plus_refuted`). -/
theorem C28_plus_same_partial (hb : 32 ≤ cfg.usizeBits) (hr : ReloadsOk c ops)
    (hc : ∀ pre i post, ops = pre ++ .count i :: post → ∀ a, (contents 64 18 pre)[i]? = some a →
      2 * a.p < cfg.usizeBits ∨ plusRegime ln a.p a.S ≤ 1) :
    outputs (Plus.api cfg ln c) ords ops =
      outputs (Plus.api { cfg with usizeBits := 64 } ln c) ords ops := by
  rw [C28_plus_description hb hr, C28_plus_description (by simp) hr]
  apply expectedOn_congr
  intro pre i post e a ha
  have hv := contents_valid 64 18 pre a (mem_of_get ha)
  rw [plusCountOn, if_pos (hc pre i post e a ha), plusCountOn, if_pos (Or.inl (by
    have := hv.2.1; show 2 * a.p < 64; omega))]

/-- **C28, restricted,** for `HyperLogLogPF`: precisions up to 15 on 32-bit targets. -/
theorem C28_pf_same_partial (hb : 32 ≤ cfg.usizeBits) (hr : ReloadsOk c ops)
    (hc : ∀ pre i post, ops = pre ++ .count i :: post → ∀ a, (contents 32 16 pre)[i]? = some a →
      2 * a.p < cfg.usizeBits) :
    outputs (PF.api cfg ln c) ords ops =
      outputs (PF.api { cfg with usizeBits := 64 } ln c) ords ops := by
  rw [C28_pf_description hb hr, C28_pf_description (by simp) hr]
  apply expectedOn_congr
  intro pre i post e a ha
  have hv := contents_valid 32 16 pre a (mem_of_get ha)
  rw [pfCountOn, if_pos (hc pre i post e a ha), pfCountOn, if_pos (by
    have := hv.2.1; show 2 * a.p < 64; omega)]

/-- The hypotheses are met, for example, by a sparse sketch of precision 16 on a 32-bit target … -/
example (ln : F64 → F64) : ∀ pre i post,
    ([.new 16 (fun _ => 3), .insert .insert 0 5, .count 0] : List (Op Nat)) = pre ++ .count i :: post →
    ∀ a, (contents 64 18 pre)[i]? = some a → 2 * a.p < 32 ∨ plusRegime ln a.p a.S ≤ 1 := by
  intro pre i post e a ha
  have hf : fitsSparse 16 ({3} : Finset Nat) := by
    rw [fitsSparse, codes, Finset.image_singleton, encSize, Finset.sort_singleton]; decide +kernel
  rcases pre with _ | ⟨x, _ | ⟨y, _ | ⟨z, pre⟩⟩⟩
  · simp at e
  · simp at e
  · simp only [List.cons_append, List.nil_append, List.cons.injEq, Op.count.injEq] at e
    obtain ⟨rfl, rfl, rfl, _⟩ := e
    cases ha
    right
    show plusRegime ln 16 ({3} : Finset Nat) ≤ 1
    unfold plusRegime
    simp only
    rw [if_pos hf]; omega
  · simp at e

/-- … and by a `HyperLogLogPF` of precision 15. -/
example : ∀ pre i post,
    ([.new 15 (fun _ => 3), .insert .insert 0 5, .count 0] : List (Op Nat)) = pre ++ .count i :: post →
    ∀ a, (contents 32 16 pre)[i]? = some a → 2 * a.p < 32 := by
  intro pre i post e a ha
  rcases pre with _ | ⟨x, _ | ⟨y, _ | ⟨z, pre⟩⟩⟩
  · simp at e
  · simp at e
  · simp only [List.cons_append, List.nil_append, List.cons.injEq, Op.count.injEq] at e
    obtain ⟨rfl, rfl, rfl, _⟩ := e
    cases ha
    decide
  · simp at e

/-! ## Programs that do not -/

/-- Insert one value into each register of a sketch of precision `p`, using `w`-bit hashes. -/
def fullProgram (w p : Nat) : List (Op Nat) :=
  .new p (fun v => BitVec.ofNat 64 (v * 2 ^ (w - p) + 2 ^ (w - p - 1))) ::
    (List.range (2 ^ p)).map (.insert .insert 0)

/-- The hashes it inserts. -/
def fullSet (w p : Nat) : Finset Nat :=
  (Finset.range (2 ^ p)).image fun v => v * 2 ^ (w - p) + 2 ^ (w - p - 1)

theorem fullHash_lt {w p v : Nat} (hp : p < w) (hv : v < 2 ^ p) :
    v * 2 ^ (w - p) + 2 ^ (w - p - 1) < 2 ^ w := by
  have h1 : 2 ^ (w - p) = 2 * 2 ^ (w - p - 1) := by rw [← pow_succ']; congr 1; omega
  have h2 : 2 ^ w = 2 ^ p * 2 ^ (w - p) := by rw [← pow_add]; congr 1; omega
  have h3 : 0 < 2 ^ (w - p - 1) := by positivity
  have h4 : (v + 1) * 2 ^ (w - p) ≤ 2 ^ p * 2 ^ (w - p) := Nat.mul_le_mul_right _ hv
  rw [Nat.add_mul] at h4
  omega

theorem fullProgram_contents {w p maxP : Nat} (hp1 : 4 ≤ p) (hp2 : p ≤ maxP) (hw : w ≤ 64) (hp : p < w) :
    ∃ a, (contents w maxP (fullProgram w p))[0]? = some a ∧ a.p = p ∧ a.S = fullSet w p := by
  have h := contentsFrom_inserts w maxP .insert 0 (List.range (2 ^ p))
    [⟨fun v => BitVec.ofNat 64 (v * 2 ^ (w - p) + 2 ^ (w - p - 1)), p, ∅⟩] _ rfl
  refine ⟨⟨fun v => BitVec.ofNat 64 (v * 2 ^ (w - p) + 2 ^ (w - p - 1)), p,
    ∅ ∪ ((List.range (2 ^ p)).map fun v =>
      (BitVec.ofNat 64 (v * 2 ^ (w - p) + 2 ^ (w - p - 1))).toNat % 2 ^ w).toFinset⟩, ?_, rfl, ?_⟩
  · rw [contents, fullProgram]
    show (contentsFrom w maxP (effect w maxP [] _) _)[0]? = _
    rw [show effect w maxP [] (.new p (fun v => BitVec.ofNat 64 (v * 2 ^ (w - p) + 2 ^ (w - p - 1)))) =
      [⟨fun v => BitVec.ofNat 64 (v * 2 ^ (w - p) + 2 ^ (w - p - 1)), p, ∅⟩] by
        simp only [effect]; rw [if_pos ⟨hp1, hp2⟩]; rfl]
    rw [h]
    rfl
  · ext x
    simp only [fullSet, Finset.empty_union, List.mem_toFinset, List.mem_map, List.mem_range,
      Finset.mem_image, Finset.mem_range]
    have key : ∀ v, v < 2 ^ p → (BitVec.ofNat 64 (v * 2 ^ (w - p) + 2 ^ (w - p - 1))).toNat % 2 ^ w =
        v * 2 ^ (w - p) + 2 ^ (w - p - 1) := by
      intro v hv
      have h1 := fullHash_lt hp hv
      have h2 : 2 ^ w ≤ 2 ^ 64 := Nat.pow_le_pow_right (by norm_num) hw
      rw [BitVec.toNat_ofNat, Nat.mod_eq_of_lt (lt_of_lt_of_le h1 h2), Nat.mod_eq_of_lt h1]
    constructor
    · rintro ⟨v, hv, rfl⟩; exact ⟨v, hv, (key v hv).symm⟩
    · rintro ⟨v, hv, rfl⟩; exact ⟨v, hv, key v hv⟩

theorem fullHash_div {w p v : Nat} (hp : p < w) :
    (v * 2 ^ (w - p) + 2 ^ (w - p - 1)) / 2 ^ (w - p) = v := by
  have h1 : 2 ^ (w - p) = 2 * 2 ^ (w - p - 1) := by rw [← pow_succ']; congr 1; omega
  have h3 : 0 < 2 ^ (w - p - 1) := by positivity
  rw [mul_comm, Nat.mul_add_div (by omega), Nat.div_eq_of_lt (by omega), add_zero]

/-- Every register is 1. -/
theorem fullSet_reg {w p j : Nat} (hp : p < w) (hj : j < 2 ^ p) : reg w p (fullSet w p) j = 1 := by
  have hr : ∀ v, rank w p (v * 2 ^ (w - p) + 2 ^ (w - p - 1)) = 1 := by
    intro v
    obtain ⟨n, hn⟩ : ∃ n, w - p = n + 1 := ⟨w - p - 1, by omega⟩
    rw [rank, hn, firstOne, if_pos]
    have : v * 2 ^ (n + 1) + 2 ^ (n + 1 - 1) = 2 ^ n * (2 * v + 1) := by
      rw [Nat.add_sub_cancel, pow_succ]; ring
    rw [this, Nat.testBit_two_pow_mul]
    simp
  apply le_antisymm
  · apply Finset.sup_le
    intro h hh
    obtain ⟨v, _, rfl⟩ := Finset.mem_image.1 (Finset.mem_filter.1 hh).1
    exact (hr v).le
  · rw [← hr j]
    apply Finset.le_sup (f := rank w p)
    rw [Finset.mem_filter]
    exact ⟨Finset.mem_image.2 ⟨j, Finset.mem_range.2 hj, rfl⟩, fullHash_div hp⟩

theorem fullSet_regs {w p : Nat} (hp : p < w) :
    regs w p (fullSet w p) = List.replicate (2 ^ p) 1 := by
  rw [List.eq_replicate_iff]
  refine ⟨by simp [regs], ?_⟩
  intro b hb
  obtain ⟨j, hj, rfl⟩ := List.mem_map.1 hb
  exact fullSet_reg hp (List.mem_range.1 hj)

theorem fullSet_big {p : Nat} (hp : p ≤ 18) : ¬ fitsSparse p (fullSet 64 p) := by
  intro h
  have h1 := card_le_encSize (codes p (fullSet 64 p))
  rw [C24_codes_are_hashes, fullSet, Finset.card_image_of_injective, Finset.card_range] at h1
  · have h2 := h1.trans h
    unfold capacity at h2
    have : 0 < 2 ^ p := by positivity
    omega
  · intro a b hab
    have := congrArg (· / 2 ^ (64 - p)) hab
    simpa [fullHash_div (show p < 64 by omega)] using this
  · intro x hx y hy hxy
    obtain ⟨a, _, rfl⟩ := Finset.mem_image.1 hx
    obtain ⟨b, _, rfl⟩ := Finset.mem_image.1 hy
    have e : 2 ^ (64 - p) = 2 ^ 39 * 2 ^ (25 - p) := by rw [← pow_add]; congr 1; omega
    have := congrArg (· / 2 ^ (25 - p)) hxy
    simp only [Nat.div_div_eq_div_mul, ← e, fullHash_div (show p < 64 by omega)] at this
    rw [this]

theorem fullSet_regime (ln : F64 → F64) {p : Nat} (hp1 : 4 ≤ p) (hp2 : p ≤ 18) :
    2 ≤ plusRegime ln p (fullSet 64 p) := by
  have hz : (regs 64 p (fullSet 64 p)).count 0 = 0 := by
    rw [fullSet_regs (by omega), List.count_replicate]; rfl
  rcases plusRegime_cases .earlyExit ln hp1 hp2 (fullSet 64 p) with ⟨_, h, _⟩ | ⟨_, _, h, _⟩ | ⟨_, _, h⟩
  · exact absurd h (fullSet_big hp2)
  · exact absurd hz h
  · rcases h with ⟨h, _⟩ | ⟨h, _⟩ <;> omega

theorem fullProgram_noCount (w p : Nat) : ∀ i, Op.count i ∉ fullProgram w p := by
  intro i; simp [fullProgram]

theorem fullProgram_reloads (w p : Nat) (c : Serde.Codec Nat) (post : List (Op Nat))
    (h : ∀ i, Op.reload i ∉ post) : ReloadsOk c (fullProgram w p ++ post) := by
  rintro ⟨i, hi⟩
  simp [fullProgram, h] at hi

/-- The observations of calls made after calls without `count`. -/
theorem expectedOn_append (w maxP : Nat) {F : Nat → Finset Nat → R F64} (post : List (Op I)) :
    ∀ (pre : List (Op I)) (st : List (Abs I)), (∀ i, Op.count i ∉ pre) →
      (do let os ← expectedOn w maxP F st (pre ++ post); pure (os.drop pre.length)) =
        expectedOn w maxP F (contentsFrom w maxP st pre) post
  | [], st, _ => by
    rw [List.nil_append, show contentsFrom w maxP st [] = st from rfl]
    cases expectedOn w maxP F st post <;> rfl
  | op :: pre, st, h => by
    have h1 : ∃ o, observeOn maxP F st op = .ok o := by
      cases op with
      | count i => exact absurd (List.mem_cons_self ..) (h i)
      | _ => exact ⟨_, rfl⟩
    obtain ⟨o, h1⟩ := h1
    have ih := expectedOn_append w maxP (F := F) post pre (effect w maxP st op)
      (fun i hi => h i (List.mem_cons_of_mem _ hi))
    rw [List.cons_append, expectedOn, h1, ok_bind]
    show _ = expectedOn w maxP F (contentsFrom w maxP (effect w maxP st op) pre) post
    rw [← ih]
    cases expectedOn w maxP F (effect w maxP st op) (pre ++ post) <;> rfl

/-- **C28 is false for `HyperLogLogPlus`.** For precisions 16 to 18, after one insertion into each
register: on a 64-bit target `count` is positive; on a 32-bit target it panics if overflow is
checked and is negative otherwise. -/
theorem C28_plus_refuted (hln : LnSpec ln) {p : Nat} (hp1 : 16 ≤ p) (hp2 : p ≤ 18) (cfg : Cfg) :
    (∃ y : ℚ, later (Plus.api { cfg with usizeBits := 64 } ln (noCodec Nat)) ords (fullProgram 64 p) [.count 0] =
      .ok [.count (fin y)] ∧ 0 < y) ∧
    later (Plus.api { cfg with usizeBits := 32, overflowChecks := true } ln (noCodec Nat)) ords (fullProgram 64 p) [.count 0] =
      .error .overflow ∧
    (∃ y : ℚ, later (Plus.api { cfg with usizeBits := 32, overflowChecks := false } ln (noCodec Nat)) ords (fullProgram 64 p) [.count 0] =
      .ok [.count (fin y)] ∧ y < 0) := by
  obtain ⟨a, h1, h2, h3⟩ := fullProgram_contents (w := 64) (p := p) (maxP := 18) (by omega) hp2
    le_rfl (by omega)
  have hreg := fullSet_regime ln (p := p) (by omega) hp2
  have hl : ∀ cfg : Cfg, 32 ≤ cfg.usizeBits →
      later (Plus.api cfg ln (noCodec Nat)) ords (fullProgram 64 p) [.count 0] = (do
        let x ← plusCountOn cfg.usizeBits cfg.overflowChecks ln (Plus.biasOf cfg.search) p (fullSet 64 p)
        pure [.count x]) := by
    intro cfg hb
    rw [later, C28_plus_description hb (fullProgram_reloads _ _ _ _ (by simp)),
      expectedOn_append 64 18 _ _ _ (fullProgram_noCount _ _)]
    rw [show contentsFrom 64 18 [] (fullProgram 64 p) = contents 64 18 (fullProgram 64 p) from rfl,
      expectedOn, observeOn]
    simp only [h1]
    rw [h2, h3]
    cases plusCountOn cfg.usizeBits cfg.overflowChecks ln (Plus.biasOf cfg.search) p (fullSet 64 p) <;> rfl
  have hne : ¬ (2 * p < 32 ∨ plusRegime ln p (fullSet 64 p) ≤ 1) := by omega
  refine ⟨?_, ?_, ?_⟩
  · apply C23_plus_nonempty hln (supported64 rfl _ (by simp [fullProgram])) h1
    rw [h3]
    exact ⟨_, Finset.mem_image.2 ⟨0, Finset.mem_range.2 (by positivity), rfl⟩⟩
  · rw [hl _ (by norm_num), plusCountOn, if_neg hne]; rfl
  · have hneg : ∀ q : Fin 3, sub (num 0) (Plus.biasOf cfg.search (16 + q) (num 0)) =
        fin (sub (num 0) (Plus.biasOf cfg.search (16 + q) (num 0))).val ∧
        (sub (num 0) (Plus.biasOf cfg.search (16 + q) (num 0))).val < 0 := by
      cases cfg.search <;> decide +kernel
    have := hneg ⟨p - 16, by omega⟩
    simp only [show 16 + (p - 16) = p by omega] at this
    refine ⟨_, ?_, this.2⟩
    rw [hl _ (by norm_num), plusCountOn, if_neg hne, ← this.1]; rfl

/-- **C28 is false for `HyperLogLogPF`.** At precision 16 on a 32-bit target: with overflow checks
`count` panics, whatever the sketch holds, even nothing. -/
theorem C28_pf_refuted_checked {pre : List (Op I)} {a : Abs I}
    (hr : ReloadsOk c (pre ++ [.count i])) (hn : ∀ i, Op.count i ∉ pre)
    (ha : (contents 32 16 pre)[i]? = some a) (hp : a.p = 16) :
    later (PF.api { cfg with usizeBits := 32, overflowChecks := true } ln c) ords pre [.count i] = .error .overflow := by
  rw [later, C28_pf_description (by norm_num) hr, expectedOn_append 32 16 _ _ _ hn,
    show contentsFrom 32 16 [] pre = contents 32 16 pre from rfl, expectedOn, observeOn]
  simp only [ha, hp]
  rfl

example : ∃ a, (contents 32 16 ([.new 16 (fun _ => 3)] : List (Op Nat)))[0]? = some a ∧ a.p = 16 :=
  ⟨_, rfl, rfl⟩

/-- **C28 is false for `HyperLogLogPF`.** Without overflow checks, after one insertion into each
register, `count` is 0 on a 32-bit target and positive on a 64-bit target. -/
theorem C28_pf_refuted_release (hln : LnSpec ln) (cfg : Cfg) :
    (∃ y : ℚ, later (PF.api { cfg with usizeBits := 64, overflowChecks := false } ln (noCodec Nat)) ords (fullProgram 32 16) [.count 0] =
      .ok [.count (fin y)] ∧ 0 < y) ∧
    later (PF.api { cfg with usizeBits := 32, overflowChecks := false } ln (noCodec Nat)) ords (fullProgram 32 16) [.count 0] =
      .ok [.count (fin 0)] := by
  obtain ⟨a, h1, h2, h3⟩ := fullProgram_contents (w := 32) (p := 16) (maxP := 16) (by omega) le_rfl
    (by norm_num) (by omega)
  have hM := fullSet_regs (w := 32) (p := 16) (by norm_num)
  have hz : (regs 32 16 (fullSet 32 16)).count 0 = 0 := by
    rw [hM, List.count_replicate]; rfl
  constructor
  · rw [pf_count_val (supported64 rfl _ (by simp [fullProgram])) h1, h2, h3, pfCount]
    have hR : Regs 16 (regs 32 16 (fullSet 32 16)) := regs_regs _ (by norm_num)
    have hlt := pf_raw_lt (p := 16) (by norm_num) le_rfl hR.length (by
      intro r hr
      rw [hM] at hr
      rw [List.eq_of_mem_replicate hr]
      norm_num) (by
      rw [hM, List.countP_replicate]; norm_num)
    obtain ⟨y, k1, _, k2⟩ := (pfDense_value hln (by norm_num) le_rfl hR).1 hlt
    exact ⟨y, by rw [k1], k2 (by rw [hz]; positivity)⟩
  · rw [later, C28_pf_description (by norm_num) (fullProgram_reloads _ _ _ _ (by simp)),
      expectedOn_append 32 16 _ _ _ (fullProgram_noCount _ _)]
    rw [show contentsFrom 32 16 [] (fullProgram 32 16) = contents 32 16 (fullProgram 32 16) from rfl,
      expectedOn, observeOn]
    simp only [h1]
    rw [h2, h3, pfCountOn, if_neg (by norm_num), if_neg (by simp), if_neg (by rw [hz]; simp)]
    simp [num, ok_bind, expectedOn, pure_eq_ok]

end HLL
