import Verif.Props.Targets

/-!
# C68: `HyperLogLogPF` on targets with a narrow `usize`

`HyperLogLogPF` is available without the standard library, so it may run on targets with a 16-bit `usize`.
Here the number of registers is a `usize`, and `count` squares it.
-/

namespace HLL
open Spec F64

variable {I : Type} {cfg : Cfg} {ln : F64 → F64} {c : Serde.Codec I}
  {ords : Nat → IterOrder × IterOrder} {ops : List (Op I)} {i : Nat}

/-- Every valid precision the program asks for satisfies `P`. -/
def Precisions (P : Nat → Prop) (ops : List (Op I)) : Prop :=
  ∀ p b, Op.new p b ∈ ops → 4 ≤ p → p ≤ 16 → P p

theorem contents_precisions {P : Nat → Prop} (w : Nat) :
    ∀ (ops : List (Op I)) (st : List (Abs I)), (∀ a ∈ st, P a.p) →
      (∀ p b, Op.new p b ∈ ops → 4 ≤ p → p ≤ 16 → P p) → ∀ a ∈ contentsFrom w 16 st ops, P a.p
  | [], _, h, _ => h
  | op :: ops, st, h, hn => by
    refine contents_precisions w ops (effect w 16 st op) ?_ (fun p b hb => hn p b (List.mem_cons_of_mem _ hb))
    intro a ha
    cases op with
    | new p b =>
      simp only [effect] at ha
      split at ha
      · next hp =>
        rcases List.mem_append.1 ha with ha | ha
        · exact h a ha
        · rw [List.mem_singleton] at ha
          subst ha
          exact hn p b List.mem_cons_self hp.1 hp.2
      · exact h a ha
    | clone j =>
      simp only [effect] at ha
      split at ha
      · next s hs =>
        rcases List.mem_append.1 ha with ha | ha
        · exact h a ha
        · rw [List.mem_singleton] at ha
          subst ha
          exact h _ (List.mem_of_getElem? hs)
      · exact h a ha
    | insert k j v =>
      simp only [effect] at ha
      split at ha
      · next s hs =>
        rcases List.mem_or_eq_of_mem_set ha with ha | rfl
        · exact h a ha
        · exact h s (List.mem_of_getElem? hs)
      · exact h a ha
    | merge j k =>
      simp only [effect] at ha
      split at ha
      · next s t hs ht =>
        split at ha
        · rcases List.mem_or_eq_of_mem_set ha with ha | rfl
          · exact h a ha
          · exact h s (List.mem_of_getElem? hs)
        · exact h a ha
      · exact h a ha
    | count j => exact h a ha
    | reload j =>
      simp only [effect] at ha
      split at ha
      · next s hs =>
        rcases List.mem_append.1 ha with ha | ha
        · exact h a ha
        · rw [List.mem_singleton] at ha
          subst ha
          exact h _ (List.mem_of_getElem? hs)
      · exact h a ha

theorem Precisions.fits {P : Nat → Prop} {bits : Nat} (h : Precisions P ops) (hb : 4 < bits)
    (hP : ∀ p, P p → p < bits) : ∀ op ∈ ops, NewFits bits 16 op := by
  intro op hop
  cases op with
  | new p b =>
    intro hp
    rcases Nat.lt_or_ge p 4 with h4 | h4
    · omega
    · exact hP p (h p b hop h4 hp)
  | _ => trivial

/-- **C68.** On a target whose `usize` has `w` bits (`w` at least 5), a program that only uses precisions
below `w/2` (up to 7 for 16 bits) gives the same results as on a 64-bit target. -/
theorem C68_pf_same (hb : 4 < cfg.usizeBits) (hr : ReloadsOk c ops)
    (hp : Precisions (fun p => 2 * p < cfg.usizeBits) ops) :
    outputs (PF.api cfg ln c) ords ops =
      outputs (PF.api { cfg with usizeBits := 64 } ln c) ords ops := by
  rw [pf_description (hp.fits hb fun p h => by omega) hr,
    C28_pf_description (by simp) hr]
  apply expectedOn_congr
  intro pre i post e a ha
  have hv := contents_valid 32 16 pre a (mem_of_get ha)
  have := contents_precisions (P := fun p => 2 * p < cfg.usizeBits) 32 pre [] (by simp)
    (fun p b hb => hp p b (by rw [e]; exact List.mem_append_left _ hb)) a (mem_of_get ha)
  rw [pfCountOn, if_pos this, pfCountOn, if_pos (by have := hv.2.1; show 2 * a.p < 64; omega)]

/-- **C68.** With precisions up to `w - 1`, programs that do not call `count` give the same results as on a
64-bit target: the sketches can be filled, cloned, merged, saved and loaded. -/
theorem C68_pf_no_count (hb : 4 < cfg.usizeBits) (hr : ReloadsOk c ops)
    (hp : Precisions (fun p => p < cfg.usizeBits) ops) (hn : ∀ i, Op.count i ∉ ops) :
    outputs (PF.api cfg ln c) ords ops =
      outputs (PF.api { cfg with usizeBits := 64 } ln c) ords ops := by
  rw [pf_description (hp.fits hb fun p h => h) hr, C28_pf_description (by simp) hr]
  apply expectedOn_congr
  intro pre i post e
  exact absurd (by rw [e]; simp) (hn i)

/-- What `count` does on a sketch whose squared number of registers does not fit in `usize`. -/
theorem pf_count_narrow {pre : List (Op I)} {a : Abs I} (hb : 4 < cfg.usizeBits)
    (hr : ReloadsOk c (pre ++ [.count i])) (hp : Precisions (fun p => p < cfg.usizeBits) pre)
    (hn : ∀ i, Op.count i ∉ pre) (ha : (contents 32 16 pre)[i]? = some a) :
    later (PF.api cfg ln c) ords pre [.count i] = (do
      let x ← pfCountOn cfg.usizeBits cfg.overflowChecks ln a.p a.S
      pure [.count x]) := by
  have hfit : ∀ op ∈ pre ++ [Op.count i], NewFits (I := I) cfg.usizeBits 16 op := by
    intro op hop
    rcases List.mem_append.1 hop with h | h
    · exact hp.fits hb (fun p h => h) op h
    · rw [List.mem_singleton] at h; subst h; trivial
  rw [later, pf_description hfit hr, expectedOn_append 32 16 _ _ _ hn,
    show contentsFrom 32 16 [] pre = contents 32 16 pre from rfl, expectedOn, observeOn]
  simp only [ha]
  cases pfCountOn cfg.usizeBits cfg.overflowChecks ln a.p a.S <;> rfl

/-- **C68.** With overflow checks, `count` panics on every sketch whose precision is at least `w/2`
(8 to 15 for 16 bits), whatever the sketch holds, even nothing. -/
theorem C68_pf_checked {pre : List (Op I)} {a : Abs I} (hb : 4 < cfg.usizeBits)
    (hc : cfg.overflowChecks = true) (hr : ReloadsOk c (pre ++ [.count i]))
    (hp : Precisions (fun p => p < cfg.usizeBits) pre) (hn : ∀ i, Op.count i ∉ pre)
    (ha : (contents 32 16 pre)[i]? = some a) (h2 : cfg.usizeBits ≤ 2 * a.p) :
    later (PF.api cfg ln c) ords pre [.count i] = .error .overflow := by
  rw [pf_count_narrow hb hr hp hn ha, pfCountOn, if_neg (by omega), if_pos hc]
  rfl

/-- **C68.** Without overflow checks, `count` on such a sketch is 0 as soon as every register has been
hit, however many values were inserted; before that it is linear counting. -/
theorem C68_pf_release {pre : List (Op I)} {a : Abs I} (hb : 4 < cfg.usizeBits)
    (hc : cfg.overflowChecks = false) (hr : ReloadsOk c (pre ++ [.count i]))
    (hp : Precisions (fun p => p < cfg.usizeBits) pre) (hn : ∀ i, Op.count i ∉ pre)
    (ha : (contents 32 16 pre)[i]? = some a) (h2 : cfg.usizeBits ≤ 2 * a.p) :
    later (PF.api cfg ln c) ords pre [.count i] =
      .ok [.count (if zeros 32 a.p a.S = 0 then fin 0 else linear ln (2 ^ a.p) (zeros 32 a.p a.S))] := by
  rw [pf_count_narrow hb hr hp hn ha, pfCountOn, if_neg (by omega), if_neg (by simp [hc]),
    count_zero_regs]
  by_cases h0 : zeros 32 a.p a.S = 0
  · rw [if_neg (not_not.2 h0), if_pos h0, num]; simp [ok_bind, pure_eq_ok]
  · rw [if_pos h0, if_neg h0]; rfl

/-- **C68.** On a 16-bit target `new(16)`, documented as valid, panics with overflow checks.  Without them
it returns a sketch with a single word of registers, and inserting a value whose bucket is not one of the
first six panics. -/
theorem C68_pf_new16 (h : cfg.usizeBits = 16) (b : I → U64) :
    (cfg.overflowChecks = true → PF.new cfg 16 b = .error .overflow) ∧
    (cfg.overflowChecks = false → ∃ s, PF.new cfg 16 b = .ok (.ok s) ∧ s.registers.buf.length = 1 ∧
      ∀ x : U64, 6 ≤ bucket 32 16 (x.toNat % 2 ^ 32) → PF.insertHash cfg s x = .error .indexOutOfBounds) := by
  constructor
  · intro hc
    rw [PF.new, if_neg (by decide), Common.registerCount, shlUsizeOne, shAmt, if_neg (by omega), if_pos hc]
    rfl
  · intro hc
    refine ⟨⟨b, 1, 16, ⟨[0#32], 1, 1⟩⟩, ?_, rfl, ?_⟩
    · rw [PF.new, if_neg (by decide), Common.registerCount, shlUsizeOne, shAmt, if_neg (by omega),
        if_neg (by simp [hc]), h]
      simp only [ok_bind, pure_eq_ok, Nat.mod_self, pow_zero]
      rw [Registers.withCount, Registers.ceil_ok cfg (by decide) (by rw [h]; decide)]
      rfl
    · intro x hx
      have hx2 : (((x.setWidth 32 : U32) >>> 16).toNat % 2 ^ cfg.usizeBits) = bucket 32 16 (x.toNat % 2 ^ 32) := by
        rw [BitVec.toNat_ushiftRight, BitVec.toNat_setWidth, Nat.shiftRight_eq_div_pow, h, bucket,
          Nat.mod_eq_of_lt]
        exact bucket_lt (w := 32) (p := 16) (by norm_num) (Nat.mod_lt _ (by norm_num))
      rw [PF.insertHash]
      simp only
      rw [subU8_ok cfg (by omega) (by norm_num), ok_bind, shr_ok cfg _ (by omega), ok_bind,
        shl_ok cfg _ (by omega), ok_bind, subU8_ok cfg (by omega) (by omega), ok_bind,
        shl_ok cfg _ (by omega), ok_bind]
      simp only [show (32 : Nat) - 16 = 16 from rfl, hx2, Registers.setGreater]
      rw [index, List.getElem?_eq_none]
      · rfl
      · simp only [List.length_singleton, show Registers.perWord PF.SIZE = 6 from rfl]
        omega

/-! ## Instances -/

/-- A build for a 16-bit target without overflow checks. -/
def release16 : Cfg := { usizeBits := 16, overflowChecks := false, constLoop := true, std := false }

/-- Precision 7 works on 16-bit targets. -/
example (ops : List (Op Nat)) (h : ∀ p b, Op.new p b ∈ ops → p = 7) (hr : ∀ i, Op.reload i ∉ ops) :
    outputs (PF.api release16 ln (noCodec Nat)) ords ops =
      outputs (PF.api { release16 with usizeBits := 64 } ln (noCodec Nat)) ords ops :=
  C68_pf_same (by decide) (fun ⟨i, hi⟩ => absurd hi (hr i)) fun p b hb _ _ => by
    rw [h p b hb]; decide

/-- Precision 8 does not: after one insertion into each of the 256 registers `count` is 0. -/
example : later (PF.api release16 ln (noCodec Nat)) ords (fullProgram 32 8) [.count 0] = .ok [.count (fin 0)] := by
  obtain ⟨a, h1, h2, h3⟩ := fullProgram_contents (w := 32) (p := 8) (maxP := 16) (by omega) (by norm_num)
    (by norm_num) (by omega)
  have hz : zeros 32 a.p a.S = 0 := by
    rw [← count_zero_regs, h2, h3, fullSet_regs (w := 32) (p := 8) (by norm_num), List.count_replicate]; rfl
  rw [C68_pf_release (by decide) rfl (fullProgram_reloads _ _ _ _ (by simp)) ?_ (fullProgram_noCount _ _) h1
    (by rw [h2]; decide), if_pos hz]
  intro p b hb _ _
  simp only [fullProgram, List.mem_cons, Op.new.injEq, List.mem_map, reduceCtorEq, and_false, exists_false,
    or_false] at hb
  rw [hb.1]; decide

/-- A hash whose bucket is beyond the single word. -/
example : 6 ≤ bucket 32 16 ((0x60000#64).toNat % 2 ^ 32) := by decide

end HLL
