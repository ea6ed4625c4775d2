import Verif.Proofs.BigCount
import Verif.Props.Usable

/-!
# Which dense payloads are safe, whatever the number in the place of `m`

`C36_plus_dense_exact` supposes that the square of the number `m` in the payload fits in `usize`.  Here
is the answer for all payloads with registers and a precision that `new` accepts.
-/

namespace HLL
open Spec

variable {I : Type} {cfg : Cfg} {ln : F64 → F64} {c : Serde.Codec I}
  {ords : Nat → IterOrder × IterOrder}

theorem alwaysLinear_iff (p m : Nat) (r : Registers) : AlwaysLinear ln p m r ↔ Plus.Low ln p m r := by
  unfold AlwaysLinear Plus.Low
  rw [Plus.usable_zeros]

/-- **C36, exactly, for all dense payloads of `HyperLogLogPlus` with overflow checks.** No program using
the sketch panics if and only if its registers satisfy the conditions of `UsableDense` and either the
square of `m` fits in `usize` or `count` never gets to compute it, since linear counting applies
whichever registers get used. -/
theorem C36_plus_dense_all (hb : 36 < cfg.usizeBits) (ho : cfg.overflowChecks = true) {v : Value}
    {s : Plus I} {r : Registers} (hs : Serde.dePlus cfg c v = some s) (hr : s.registers = some r)
    (hp1 : 4 ≤ s.precision) (hp2 : s.precision ≤ 18) (hh : Function.Surjective s.builder) :
    (∀ ops, ∃ st' os, run (Plus.api cfg ln c) ords 0 [s] ops = .ok (st', os)) ↔
      UsableDense s.precision r ∧
        (s.counts.1 * s.counts.1 < 2 ^ cfg.usizeBits ∨ AlwaysLinear ln s.precision s.counts.1 r) := by
  have ht := dePlus_typed hs
  constructor
  · intro h
    have hn : Never (Plus.api cfg ln c) ords [s] :=
      ⟨0, fun ops => by obtain ⟨a, b, h⟩ := h ops; exact ⟨_, h⟩⟩
    refine ⟨Plus.never_usable (by omega) ho ht hh hr hp1 hp2 (i := 0) hn rfl, ?_⟩
    by_cases hm : s.counts.1 * s.counts.1 < 2 ^ cfg.usizeBits
    · exact Or.inl hm
    · exact Or.inr ((alwaysLinear_iff _ _ _).2
        (Plus.never_low (by omega) ho ht hh hr hp1 hp2 hm (i := 0) hn rfl))
  · rintro ⟨h1, h2⟩ ops
    obtain ⟨st', os, h3, _⟩ := (Plus.bkin_keeps (ln := ln) hb ho c).run ords ops 0 (st := [s]) (by
      intro t hm'
      rw [List.mem_singleton] at hm'
      subst hm'
      rcases h2 with hm | hl
      · exact Or.inl (Or.inr ⟨r, hr, hp1, hp2, ⟨_, mulUsize_ok cfg hm⟩, ht, h1⟩)
      · exact Or.inr ⟨r, hr, hp1, hp2, ht, h1, (alwaysLinear_iff _ _ _).1 hl⟩)
    exact ⟨st', os, h3⟩

/-- The conditions are sufficient for any builders and for several sketches at once. -/
theorem C36_plus_dense_several (hb : 36 < cfg.usizeBits) (ho : cfg.overflowChecks = true) {st : List (Plus I)}
    (hst : ∀ s ∈ st, (∃ v, Serde.dePlus cfg c v = some s) ∧ (GoodPlus s ∨ ∃ r, s.registers = some r ∧
      4 ≤ s.precision ∧ s.precision ≤ 18 ∧ UsableDense s.precision r ∧
      (s.counts.1 * s.counts.1 < 2 ^ cfg.usizeBits ∨ AlwaysLinear ln s.precision s.counts.1 r)))
    (ops : List (Op I)) (n : Nat) :
    ∃ st' os, run (Plus.api cfg ln c) ords n st ops = .ok (st', os) := by
  obtain ⟨st', os, h1, _⟩ := (Plus.bkin_keeps (ln := ln) hb ho c).run ords ops n (st := st) (by
    intro t ht
    obtain ⟨⟨v, hv⟩, h | ⟨r, hr, hp1, hp2, h, hm | hl⟩⟩ := hst t ht
    · exact Or.inl (Plus.Safe.kin hb (Plus.closed_checked ho).good ⟨h, (dePlus_typed hv).sparse⟩)
    · exact Or.inl (Or.inr ⟨r, hr, hp1, hp2, ⟨_, mulUsize_ok cfg hm⟩, dePlus_typed hv, h⟩)
    · exact Or.inr ⟨r, hr, hp1, hp2, dePlus_typed hv, h, (alwaysLinear_iff _ _ _).1 hl⟩)
  exact ⟨st', os, h1⟩

/-! ## Cases -/

/-- A sketch with `m = 2 ^ 63` that no program makes panic: `zeros` is large as well, so that linear
counting always gives 0.  All that is used of the logarithm is `ln 1 = 0`. -/
example (hln : ln (F64.fin 1) = F64.fin 0) {c : Serde.Codec U64} (hc : c.RoundTrips id) :
    ∃ v s, Serde.dePlus Cfg.debug64 c v = some s ∧ ¬ s.counts.1 * s.counts.1 < 2 ^ 64 ∧
      ∀ ops, ∃ st' os, run (Plus.api Cfg.debug64 ln c) ords 0 [s] ops = .ok (st', os) := by
  have hd := Serde.dePlus_serPlus Cfg.debug64 IterOrder.id (s := (⟨id, 4, (2 ^ 63, 0, 0), [], ⟨0, 0, []⟩,
    some ⟨[0, 0, 0, 0], 16, 2 ^ 63 + 16⟩⟩ : Plus U64)) hc (by norm_num) (by norm_num [Cfg.debug64])
    (by norm_num [Cfg.debug64]) (by norm_num [Cfg.debug64]) (by norm_num [Cfg.debug64])
    (by rintro r ⟨⟩; norm_num [Cfg.debug64])
  refine ⟨_, _, hd, by norm_num, ?_⟩
  rw [C36_plus_dense_all (by norm_num [Cfg.debug64]) rfl hd rfl (by norm_num) (by norm_num)
    Function.surjective_id]
  have h16 : ((List.range 16).map (packed 6 [0, 0, 0, 0])).count 0 = 16 := by decide +kernel
  refine ⟨⟨by norm_num, ?_, ?_⟩, Or.inr ?_⟩
  · show ((List.range 16).map (packed 6 [0, 0, 0, 0])).count 0 ≤ 2 ^ 63 + 16
    rw [h16]; norm_num
  · intro j hj hj2
    rw [lt_min_iff] at hj
    exact absurd hj.1 (by show ¬ j < 16; have : 16 ≤ j := hj2; omega)
  · intro z hz1 hz2
    have hz1 : 2 ^ 63 + 16 ≤ z + ((List.range 16).map (packed 6 [0, 0, 0, 0])).count 0 := hz1
    have hz2 : z ≤ 2 ^ 63 + 16 := hz2
    rw [h16] at hz1
    obtain ⟨k, hk, rfl⟩ : ∃ k < 17, z = 2 ^ 63 + k := ⟨z - 2 ^ 63, by omega, by omega⟩
    refine ⟨by omega, ?_⟩
    have hq : ∀ k < 17, F64.div (F64.ofNat (2 ^ 63)) (F64.ofNat (2 ^ 63 + k)) = F64.fin 1 := by
      decide +kernel
    show F64.le (linearAny ln (2 ^ 63) (2 ^ 63 + k)) (num 10) = true
    unfold linearAny
    rw [hq k hk, hln]
    decide +kernel

/-- With the same `m` and an honest `zeros` some program panics, whatever the logarithm: once all
registers are used, `count` squares `m`. -/
example {c : Serde.Codec U64} (hc : c.RoundTrips id) :
    ∃ v s, Serde.dePlus Cfg.debug64 c v = some s ∧ UsableDense 4 ⟨[0, 0, 0, 0], 16, 16⟩ ∧
      s.registers = some ⟨[0, 0, 0, 0], 16, 16⟩ ∧
      ¬ ∀ ops, ∃ st' os, run (Plus.api Cfg.debug64 ln c) ords 0 [s] ops = .ok (st', os) := by
  have hd := Serde.dePlus_serPlus Cfg.debug64 IterOrder.id (s := (⟨id, 4, (2 ^ 63, 0, 0), [], ⟨0, 0, []⟩,
    some ⟨[0, 0, 0, 0], 16, 16⟩⟩ : Plus U64)) hc (by norm_num) (by norm_num [Cfg.debug64])
    (by norm_num [Cfg.debug64]) (by norm_num [Cfg.debug64]) (by norm_num [Cfg.debug64])
    (by rintro r ⟨⟩; norm_num [Cfg.debug64])
  have h16 : ((List.range 16).map (packed 6 [0, 0, 0, 0])).count 0 = 16 := by decide +kernel
  refine ⟨_, _, hd, ⟨by norm_num, h16.le, ?_⟩, rfl, ?_⟩
  · intro j hj hj2
    rw [lt_min_iff] at hj
    exact absurd hj.1 (by show ¬ j < 16; have : 16 ≤ j := hj2; omega)
  · rw [C36_plus_dense_all (by norm_num [Cfg.debug64]) rfl hd rfl (by norm_num) (by norm_num)
      Function.surjective_id]
    rintro ⟨-, h | h⟩
    · norm_num [Cfg.debug64] at h
    · exact (h 0 (by rw [Nat.zero_add]; exact h16.ge) (Nat.zero_le _)).1 rfl

end HLL
