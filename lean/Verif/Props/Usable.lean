import Verif.Proofs.PlusUse
import Verif.Props.Deserialize

/-!
# Which deserialised sketches are safe: the exact answer

C36 is false for the code, and `C36_pf_partial` gives checks that are sufficient.  Here are conditions
that are necessary as well.
-/

namespace HLL
open Spec

variable {I : Type} {cfg : Cfg} {ln : F64 → F64} {c : Serde.Codec I}
  {ords : Nat → IterOrder × IterOrder}

theorem deRegisters_typed {v : Value} {r : Registers} (h : Serde.deRegisters cfg v = some r) :
    r.count < 2 ^ cfg.usizeBits ∧ r.zeros < 2 ^ cfg.usizeBits := by
  unfold Serde.deRegisters at h
  simp only [Option.bind_eq_bind, Option.bind_eq_some_iff] at h
  obtain ⟨fs, -, h⟩ := h
  split at h
  · simp only [Option.bind_eq_some_iff, Option.pure_def, Option.some.injEq] at h
    obtain ⟨_, _, _, _, _, _, _, h1, _, _, _, h2, rfl⟩ := h
    exact ⟨deNat_lt h1, deNat_lt h2⟩
  · cases h

theorem dePF_typed {v : Value} {s : PF I} (h : Serde.dePF cfg c v = some s) :
    PF.Typed cfg.usizeBits s := by
  unfold Serde.dePF at h
  simp only [Option.bind_eq_bind, Option.bind_eq_some_iff] at h
  obtain ⟨fs, -, h⟩ := h
  split at h
  · simp only [Option.bind_eq_some_iff, Option.pure_def, Option.some.injEq] at h
    obtain ⟨_, _, _, _, _, _, _, h1, _, _, _, h2, _, _, _, h3, _, _, _, _, rfl⟩ := h
    have h4 := deRegisters_typed h3
    exact ⟨deNat_lt h1, deNat_lt h2, h4.1, h4.2⟩
  · cases h

/-- **C36, exactly, for `HyperLogLogPF` with overflow checks.** Let `s` be deserialised from any payload
whatever.  Suppose that the builder in it can produce all 32-bit hashes.  Then it is safe, i.e. no
program using it (and sketches that it creates, copies, merges and reloads) panics, if and only if its
fields satisfy the conditions of `UsablePF`. -/
theorem C36_pf_exact (hb : 32 < cfg.usizeBits) (ho : cfg.overflowChecks = true) {v : Value} {s : PF I}
    (hs : Serde.dePF cfg c v = some s) (hh : ∀ y : U32, ∃ x, (s.builder x).setWidth 32 = y) :
    (∀ ops, ∃ st' os, run (PF.api cfg ln c) ords 0 [s] ops = .ok (st', os)) ↔
      UsablePF cfg.usizeBits s := by
  have ht := dePF_typed hs
  constructor
  · intro h
    exact PF.never_usable hb ho ht hh (ln := ln) (c := c) (ords := ords) ⟨0, fun ops => by
      obtain ⟨a, b, h⟩ := h ops; exact ⟨_, h⟩⟩
  · intro h ops
    obtain ⟨st', os, h1, _⟩ := (PF.kin_keeps hb ho ln c s).run ords ops 0 (st := [s]) (by
      intro t hm
      rw [List.mem_singleton] at hm
      subst hm
      exact ⟨h, ht, fun _ => ⟨rfl, rfl, rfl, fun _ _ => rfl⟩⟩)
    exact ⟨st', os, h1⟩

/-- The conditions are sufficient for any builder, and for several sketches at once if their precisions
are ones that `new` accepts. -/
theorem C36_pf_usable (hb : 32 < cfg.usizeBits) (ho : cfg.overflowChecks = true) {st : List (PF I)}
    (hst : ∀ s ∈ st, (∃ v, Serde.dePF cfg c v = some s) ∧ UsablePF cfg.usizeBits s ∧
      4 ≤ s.precision ∧ s.precision ≤ 16) (ops : List (Op I)) (n : Nat) :
    ∃ st' os, run (PF.api cfg ln c) ords n st ops = .ok (st', os) := by
  rcases st with - | ⟨s, st⟩
  · obtain ⟨st', os, h1, _⟩ := (PF.keeps_good cfg hb ln c).run ords ops n (st := []) (by simp)
    exact ⟨st', os, h1⟩
  · obtain ⟨st', os, h1, _⟩ := (PF.kin_keeps hb ho ln c s).run ords ops n (st := s :: st) (by
      intro t hm
      obtain ⟨⟨v, hv⟩, h2, h3, h4⟩ := hst t hm
      exact ⟨h2, dePF_typed hv, fun h => by omega⟩)
    exact ⟨st', os, h1⟩

/-- **C36, exactly, for `HyperLogLogPF` without overflow checks.** -/
theorem C36_pf_exact_wrapping (hb : 32 < cfg.usizeBits) (ho : cfg.overflowChecks = false) {v : Value}
    {s : PF I} (hs : Serde.dePF cfg c v = some s)
    (hh : ∀ y : U32, ∃ x, (s.builder x).setWidth 32 = y) :
    (∀ ops, ∃ st' os, run (PF.api cfg ln c) ords 0 [s] ops = .ok (st', os)) ↔
      UsableWrappingPF s := by
  have ht := dePF_typed hs
  constructor
  · intro h
    exact PF.never_usableW hb ho ht hh (ln := ln) (c := c) (ords := ords) ⟨0, fun ops => by
      obtain ⟨a, b, h⟩ := h ops; exact ⟨_, h⟩⟩
  · intro h ops
    obtain ⟨st', os, h1, _⟩ := (PF.kinW_keeps hb ho ln c s).run ords ops 0 (st := [s]) (by
      intro t hm
      rw [List.mem_singleton] at hm
      subst hm
      exact ⟨h, ht, fun _ => ⟨rfl, rfl, rfl⟩⟩)
    exact ⟨st', os, h1⟩

/-- The well-formed sketches are usable in both kinds of build. -/
theorem C36_pf_good_usable {W : Nat} (hW : 32 < W) {s : PF I} (h : GoodPF s) :
    UsablePF W s ∧ UsableWrappingPF s := by
  obtain ⟨h1, h2, h3, h4, h5, h6⟩ := h
  have h5 : s.registers.buf.length = (2 ^ s.precision + 6 - 1) / 6 := h5
  have hp : 2 ^ s.precision ≤ 2 ^ 16 := Nat.pow_le_pow_right (by norm_num) h2
  have hm : 2 ^ s.precision * 2 ^ s.precision ≤ 2 ^ 16 * 2 ^ 16 := Nat.mul_le_mul hp hp
  have hW' : 2 ^ 32 < 2 ^ W := Nat.pow_lt_pow_right (by norm_num) hW
  refine ⟨⟨by omega, by omega, by rw [h3]; omega, by omega, by rw [h6], fun _ _ j hj hj2 => by omega⟩, ?_, ?_⟩
  · rw [if_neg (by omega), Nat.mod_eq_of_lt (by omega)]; omega
  · intro _ _; rw [h4]; omega

theorem deTriple_lt {w : Nat} {v : Value} {cs : Nat × Nat × Nat} (h : Serde.deTriple w v = some cs) :
    cs.1 < 2 ^ w ∧ cs.2.1 < 2 ^ w ∧ cs.2.2 < 2 ^ w := by
  unfold Serde.deTriple at h
  split at h
  · simp only [Option.bind_eq_bind, Option.bind_eq_some_iff, Option.pure_def, Option.some.injEq] at h
    obtain ⟨_, h1, _, h2, _, h3, rfl⟩ := h
    exact ⟨deNat_lt h1, deNat_lt h2, deNat_lt h3⟩
  · cases h

theorem deDifInt_lt {v : Value} {d : DifIntVec} (h : Serde.deDifInt cfg v = some d) :
    d.count < 2 ^ cfg.usizeBits := by
  unfold Serde.deDifInt at h
  simp only [Option.bind_eq_bind, Option.bind_eq_some_iff] at h
  obtain ⟨fs, -, h⟩ := h
  split at h
  · simp only [Option.bind_eq_some_iff, Option.pure_def, Option.some.injEq] at h
    obtain ⟨_, _, _, h1, _, _, _, _, _, _, _, _, rfl⟩ := h
    exact deNat_lt h1
  · cases h

theorem deOption_registers {v : Option Value} {r : Registers}
    (h : Serde.deOption (Serde.deRegisters cfg) v = some (some r)) :
    r.count < 2 ^ cfg.usizeBits ∧ r.zeros < 2 ^ cfg.usizeBits := by
  unfold Serde.deOption at h
  split at h
  · cases h
  · cases h
  · rw [Option.map_eq_some_iff] at h
    obtain ⟨r', h1, h2⟩ := h
    cases h2
    exact deRegisters_typed h1
  · cases h

theorem dePlus_typed {v : Value} {s : Plus I} (h : Serde.dePlus cfg c v = some s) :
    Plus.Typed cfg.usizeBits s := by
  unfold Serde.dePlus at h
  simp only [Option.bind_eq_bind, Option.bind_eq_some_iff] at h
  obtain ⟨fs, -, h⟩ := h
  split at h
  · simp only [Option.bind_eq_some_iff, Option.pure_def, Option.some.injEq] at h
    obtain ⟨_, _, _, _, _, _, _, h1, _, _, cs, h2, _, _, _, _, _, _, _, h3, rs, h4, _, _, _, _, rfl⟩ := h
    obtain ⟨k1, k2, k3⟩ := deTriple_lt h2
    refine ⟨deNat_lt h1, k1, k2, k3, deDifInt_lt h3, ?_⟩
    intro r hr
    simp only at hr
    subst hr
    exact deOption_registers h4
  · cases h

/-- **C36, exactly, for dense `HyperLogLogPlus` with overflow checks.** Let `s` be deserialised from any
payload with registers, a precision that `new` accepts and a number `m` whose square fits in `usize`.
Suppose that the builder in it can produce all hashes.  Then no program using it panics if and only if
its registers satisfy the conditions of `UsableDense`; the sparse part and the other two numbers in
`counts` do not matter. -/
theorem C36_plus_dense_exact (hb : 36 < cfg.usizeBits) (ho : cfg.overflowChecks = true) {v : Value}
    {s : Plus I} {r : Registers} (hs : Serde.dePlus cfg c v = some s) (hr : s.registers = some r)
    (hp1 : 4 ≤ s.precision) (hp2 : s.precision ≤ 18) (hm : s.counts.1 * s.counts.1 < 2 ^ cfg.usizeBits)
    (hh : Function.Surjective s.builder) :
    (∀ ops, ∃ st' os, run (Plus.api cfg ln c) ords 0 [s] ops = .ok (st', os)) ↔
      UsableDense s.precision r := by
  have ht := dePlus_typed hs
  constructor
  · intro h
    exact Plus.never_usable (by omega) ho ht hh hr hp1 hp2 (ln := ln) (c := c) (ords := ords) (st := [s])
      (i := 0) ⟨0, fun ops => by obtain ⟨a, b, h⟩ := h ops; exact ⟨_, h⟩⟩ rfl
  · intro h ops
    obtain ⟨st', os, h1, _⟩ := (Plus.kin_keeps hb (Plus.closed_checked ho) ln c).run ords ops 0 (st := [s]) (by
      intro t hm'
      rw [List.mem_singleton] at hm'
      subst hm'
      exact Or.inr ⟨r, hr, hp1, hp2, ⟨_, mulUsize_ok cfg hm⟩, ht, h⟩)
    exact ⟨st', os, h1⟩

/-- **C36, exactly, for dense `HyperLogLogPlus` without overflow checks.** -/
theorem C36_plus_dense_exact_wrapping (hb : 36 < cfg.usizeBits) (ho : cfg.overflowChecks = false)
    {v : Value} {s : Plus I} {r : Registers} (hs : Serde.dePlus cfg c v = some s)
    (hr : s.registers = some r) (hp1 : 4 ≤ s.precision) (hp2 : s.precision ≤ 18)
    (hh : Function.Surjective s.builder) :
    (∀ ops, ∃ st' os, run (Plus.api cfg ln c) ords 0 [s] ops = .ok (st', os)) ↔
      UsableWrappingDense s.precision r := by
  have ht := dePlus_typed hs
  constructor
  · intro h
    exact Plus.never_usableW (by omega) ho hh hr hp1 hp2 (ln := ln) (c := c) (ords := ords) (st := [s])
      (i := 0) ⟨0, fun ops => by obtain ⟨a, b, h⟩ := h ops; exact ⟨_, h⟩⟩ rfl
  · intro h ops
    obtain ⟨st', os, h1, _⟩ := (Plus.kin_keeps hb (Plus.closed_wrapping ho) ln c).run ords ops 0 (st := [s]) (by
      intro t hm'
      rw [List.mem_singleton] at hm'
      subst hm'
      exact Or.inr ⟨r, hr, hp1, hp2, by
        rw [mulUsize, ck]
        split
        · exact ⟨_, rfl⟩
        · rw [ho]; exact ⟨_, rfl⟩, ht, h⟩)
    exact ⟨st', os, h1⟩

/-- The conditions are sufficient for any builders and for several sketches at once, among them sparse
ones that pass the checks of `GoodPlus`. -/
theorem C36_plus_usable (hb : 36 < cfg.usizeBits) (ho : cfg.overflowChecks = true) {st : List (Plus I)}
    (hst : ∀ s ∈ st, (∃ v, Serde.dePlus cfg c v = some s) ∧ (GoodPlus s ∨ ∃ r, s.registers = some r ∧
      4 ≤ s.precision ∧ s.precision ≤ 18 ∧ s.counts.1 * s.counts.1 < 2 ^ cfg.usizeBits ∧
      UsableDense s.precision r)) (ops : List (Op I)) (n : Nat) :
    ∃ st' os, run (Plus.api cfg ln c) ords n st ops = .ok (st', os) := by
  obtain ⟨st', os, h1, _⟩ := (Plus.kin_keeps hb (Plus.closed_checked ho) ln c).run ords ops n (st := st) (by
    intro t ht
    obtain ⟨⟨v, hv⟩, h | ⟨r, hr, hp1, hp2, hm, h⟩⟩ := hst t ht
    · exact Plus.Safe.kin hb (Plus.closed_checked ho).good ⟨h, (dePlus_typed hv).sparse⟩
    · exact Or.inr ⟨r, hr, hp1, hp2, ⟨_, mulUsize_ok cfg hm⟩, dePlus_typed hv, h⟩)
  exact ⟨st', os, h1⟩

/-! ## Cases -/

/-- A builder that can produce all 32-bit hashes. -/
theorem all_hashes (y : U32) : ∃ x : U64, ((id : U64 → U64) x).setWidth 32 = y :=
  ⟨y.setWidth 64, by simp⟩

/-- A usable sketch that is not well formed: precision 2, which `new` rejects, one word, and more zeros
than registers. -/
example : UsablePF 64 (⟨id, 4, 2, ⟨[0x41#32], 6, 1000⟩⟩ : PF U64) ∧
    ¬ GoodPF (⟨id, 4, 2, ⟨[0x41#32], 6, 1000⟩⟩ : PF U64) := by
  refine ⟨⟨by norm_num, by norm_num, by norm_num, by norm_num, ?_, by norm_num⟩, fun h => ?_⟩
  · show ((List.range 4).map (packed 5 [0x41])).count 0 ≤ 1000
    decide +kernel
  · have := h.1; norm_num at this

/-- A sketch that only a build without overflow checks can use: it says that no register is zero. -/
example : UsableWrappingPF (⟨id, 16, 4, ⟨[0, 0, 0], 16, 0⟩⟩ : PF U64) ∧
    ¬ UsablePF 64 (⟨id, 16, 4, ⟨[0, 0, 0], 16, 0⟩⟩ : PF U64) := by
  refine ⟨⟨by norm_num, by norm_num⟩, fun h => ?_⟩
  have h5 := h.2.2.2.2.1
  have h6 : ((List.range 16).map (packed 5 [0, 0, 0])).count 0 ≤ 0 := h5
  revert h6
  decide +kernel

/-- A sketch that is unusable only because of an extra register, which is not zero. -/
example : ¬ UsablePF 64 (⟨id, 16, 4, ⟨[0, 0, 0x1f00000#32], 17, 16⟩⟩ : PF U64) := by
  intro h
  have h6 := (h.2.2.2.2.2 (by norm_num) (by norm_num) 16 (by simp) (by norm_num)).2
  have h7 : packed 5 [0, 0, 0x1f00000] 16 = 0 := h6
  revert h7
  decide +kernel

/-- The hypotheses of `C36_pf_exact` are met by the payload of that last sketch, which `Deserialize`
accepts; so there is a program that panics on it. -/
example {c : Serde.Codec U64} (hc : c.RoundTrips id) :
    ∃ v s, Serde.dePF Cfg.debug64 c v = some s ∧
      ¬ ∀ ops, ∃ st' os, run (PF.api Cfg.debug64 ln c) ords 0 [s] ops = .ok (st', os) := by
  refine ⟨Serde.serPF c ⟨id, 16, 4, ⟨[0, 0, 0x1f00000#32], 17, 16⟩⟩, _,
    Serde.dePF_serPF Cfg.debug64 hc (by norm_num) (by norm_num [Cfg.debug64])
      (by norm_num [Cfg.debug64]) (by norm_num [Cfg.debug64]), ?_⟩
  rw [C36_pf_exact (by norm_num [Cfg.debug64]) rfl (Serde.dePF_serPF Cfg.debug64 hc (by norm_num)
    (by norm_num [Cfg.debug64]) (by norm_num [Cfg.debug64]) (by norm_num [Cfg.debug64])) all_hashes]
  intro h
  have h6 := (h.2.2.2.2.2 (by norm_num) (by norm_num) 16 (by simp) (by norm_num)).2
  have h7 : packed 5 [0, 0, 0x1f00000] 16 = 0 := h6
  revert h7
  decide +kernel

/-- A usable dense sketch that is not well formed: more words than needed, an iterator that stops early,
and more zeros than registers. -/
example : UsableDense 4 ⟨[0x41#32, 0, 0, 0, 0, 7], 3, 1000⟩ ∧
    ¬ GoodRegs 6 (2 ^ 4) ⟨[0x41#32, 0, 0, 0, 0, 7], 3, 1000⟩ := by
  refine ⟨⟨by norm_num, ?_, ?_⟩, fun h => ?_⟩
  · show ((List.range 16).map (packed 6 [0x41, 0, 0, 0, 0, 7])).count 0 ≤ 1000
    decide +kernel
  · intro j hj hj2
    rw [lt_min_iff] at hj
    exact absurd hj.1 (by show ¬ j < 3; omega)
  · have := h.1; norm_num at this

/-- A dense sketch whose deserialisation succeeds and on which some program panics: it says that no
register is zero.  Without overflow checks no program does. -/
example {c : Serde.Codec U64} (hc : c.RoundTrips id) :
    ∃ v s, Serde.dePlus Cfg.debug64 c v = some s ∧
      (¬ ∀ ops, ∃ st' os, run (Plus.api Cfg.debug64 ln c) ords 0 [s] ops = .ok (st', os)) ∧
      UsableWrappingDense 4 ⟨[0, 0, 0, 0], 16, 0⟩ := by
  have hd := Serde.dePlus_serPlus Cfg.debug64 IterOrder.id (s := (⟨id, 4, (16, 0, 0), [], ⟨0, 0, []⟩,
    some ⟨[0, 0, 0, 0], 16, 0⟩⟩ : Plus U64)) hc (by norm_num) (by norm_num [Cfg.debug64])
    (by norm_num [Cfg.debug64]) (by norm_num [Cfg.debug64]) (by norm_num [Cfg.debug64])
    (by rintro r ⟨⟩; norm_num [Cfg.debug64])
  refine ⟨_, _, hd, ?_, ⟨by norm_num, by norm_num⟩⟩
  rw [C36_plus_dense_exact (by norm_num [Cfg.debug64]) rfl hd rfl (by norm_num) (by norm_num)
    (by norm_num [Cfg.debug64]) Function.surjective_id]
  intro h
  have h6 : ((List.range 16).map (packed 6 [0, 0, 0, 0])).count 0 ≤ 0 := h.2.1
  revert h6
  decide +kernel

end HLL
