import Verif.Proofs.Safe
import Verif.Props.State

/-!
# C36: sketches read from arbitrary input

The derived `Deserialize` accepts any payload of the right shape.  Whatever the payload, if the fields
satisfy the checks of `Verif/SpecDe.lean` no later call panics; without them every call can.
-/

namespace HLL
open Spec

variable {I : Type} {cfg : Cfg} {ln : F64 → F64} {c : Serde.Codec I}
  {ords : Nat → IterOrder × IterOrder} {ops : List (Op I)} {i : Nat}

theorem deNat_lt {w n : Nat} {v : Value} (h : Serde.deNat w v = some n) : n < 2 ^ w := by
  unfold Serde.deNat at h
  split at h
  · split at h
    · cases h; assumption
    · cases h
  · cases h

theorem deDifInt_count {v : Value} {d : DifIntVec} (h : Serde.deDifInt cfg v = some d) :
    d.count < 2 ^ cfg.usizeBits := by
  unfold Serde.deDifInt at h
  simp only [Option.bind_eq_bind, Option.bind_eq_some_iff] at h
  obtain ⟨fs, -, h⟩ := h
  split at h
  · simp only [Option.bind_eq_some_iff, Option.pure_def, Option.some.injEq] at h
    obtain ⟨_, _, n, h1, _, _, _, _, _, _, _, _, rfl⟩ := h
    exact deNat_lt h1
  · cases h

/-- An accepted `HyperLogLogPlus` holds a `usize` number of codes. -/
theorem dePlus_count {v : Value} {s : Plus I} (h : Serde.dePlus cfg c v = some s) :
    s.sparse.count < 2 ^ cfg.usizeBits := by
  unfold Serde.dePlus at h
  simp only [Option.bind_eq_bind, Option.bind_eq_some_iff] at h
  obtain ⟨fs, -, h⟩ := h
  split at h
  · simp only [Option.bind_eq_some_iff, Option.pure_def, Option.some.injEq] at h
    obtain ⟨_, _, _, _, _, _, _, _, _, _, _, _, _, _, _, _, _, _, _, h1, _, _, _, _, _, _, rfl⟩ := h
    exact deDifInt_count h1
  · cases h

/-- **C36, restricted.** Let a program start with sketches deserialised from any payloads, whose
fields pass the checks of `GoodPlus`.  Then no sequence of calls panics, and at all times all the
sketches pass these checks.  Missing for the full claim: payloads failing the checks, for which it is
false (`C36_plus_refuted`). -/
theorem C36_plus_partial (hb : 36 < cfg.usizeBits) {st : List (Plus I)}
    (hst : ∀ s ∈ st, (∃ v, Serde.dePlus cfg c v = some s) ∧ GoodPlus s) (n : Nat) :
    ∃ st' os, run (Plus.api cfg ln c) ords n st ops = .ok (st', os) ∧ ∀ s ∈ st', GoodPlus s := by
  obtain ⟨st', os, h1, h2⟩ := (Plus.keeps_safe cfg hb ln c).run ords ops n (st := st)
    (fun s hs => ⟨(hst s hs).2, by
      obtain ⟨v, hv⟩ := (hst s hs).1
      exact dePlus_count hv⟩)
  exact ⟨st', os, h1, fun s hs => (h2 s hs).1⟩

/-- **C36, restricted,** for `HyperLogLogPF`. -/
theorem C36_pf_partial (hb : 32 < cfg.usizeBits) {st : List (PF I)}
    (hst : ∀ s ∈ st, (∃ v, Serde.dePF cfg c v = some s) ∧ GoodPF s) (n : Nat) :
    ∃ st' os, run (PF.api cfg ln c) ords n st ops = .ok (st', os) ∧ ∀ s ∈ st', GoodPF s :=
  (PF.keeps_good cfg hb ln c).run ords ops n (fun s hs => (hst s hs).2)

/-- The checks reject nothing the crate itself produces. -/
theorem C36_plus_checks_complete (h : Supported cfg c ops) {s : Plus I} {a : Abs I}
    (hr : ReachPlus cfg ln c ords ops i s a) : GoodPlus s := (hr.means h).1.good

/-- The checks reject nothing the crate itself produces. -/
theorem C36_pf_checks_complete (h : Supported cfg c ops) {s : PF I} {a : Abs I}
    (hr : ReachPF cfg ln c ords ops i s a) : GoodPF s := (hr.means h).1.good

/-! ## Malformed payloads -/

/-- A sparse sketch of precision 4 whose list of codes is the single byte `0x80`, announcing a
further byte. -/
def truncated (b : I → U64) : Plus I :=
  ⟨b, 4, (16, 2 ^ 24, 12), [], ⟨0, 0#32, [128#8]⟩, none⟩

/-- A `HyperLogLogPF` of precision 4 without any words of registers. -/
def noWords (b : I → U64) : PF I := ⟨b, 16, 4, ⟨[], 16, 16⟩⟩

theorem truncated_toList (b : I → U64) :
    (truncated b).sparse.toList cfg = .error .indexOutOfBounds := by
  simp [truncated, DifIntVec.toList, DifIntVec.collect, DifIntVec.next, VarIntVec.decode,
    VarIntVec.decodeLoop, index, shl, shAmt, Except.bind, bind, pure, Except.pure]

theorem truncated_mergeSparse (b : I → U64) (o : IterOrder) (t : List U32) :
    Plus.mergeSparse cfg o { truncated b with tmpset := t } = .error .indexOutOfBounds := by
  rw [Plus.mergeSparse]
  simp only
  rw [truncated_toList]
  rfl

theorem truncated_accepted (hb : 32 ≤ cfg.usizeBits) {b : I → U64} (hc : c.RoundTrips b) :
    Serde.dePlus cfg c (Serde.serPlus c ⟨id, fun _ => .refl _⟩ (truncated b)) = some (truncated b) := by
  have h32 : 2 ^ 32 ≤ 2 ^ cfg.usizeBits := Nat.pow_le_pow_right (by norm_num) hb
  rw [Serde.dePlus_serPlus cfg _ (by exact hc) (by simp [truncated]) (by simp only [truncated]; omega)
      (by simp only [truncated]; omega) (by simp only [truncated]; omega)
      (by simp only [truncated]; omega) (by intro r hr; cases hr)]
  rfl

theorem truncated_panics (hb : 32 ≤ cfg.usizeBits) (b : I → U64) :
    (∀ k x, run (Plus.api cfg ln c) ords 0 [truncated b] [.insert k 0 x] = .error .indexOutOfBounds) ∧
      run (Plus.api cfg ln c) ords 0 [truncated b] [.count 0] = .error .indexOutOfBounds ∧
      run (Plus.api cfg ln c) ords 0 [truncated b] [.merge 0 0] = .error .indexOutOfBounds := by
  have h32 : 2 ^ 32 ≤ 2 ^ cfg.usizeBits := Nat.pow_le_pow_right (by norm_num) hb
  refine ⟨?_, ?_, ?_⟩
  · intro k x
    have h1 : Plus.insertHash cfg (ords 0).1 (truncated b) (b x) = .error .indexOutOfBounds := by
      obtain ⟨e, he, _⟩ := Plus.encodeHash_ok cfg (p := 4) (by norm_num) (by norm_num) (b x)
      rw [Plus.insertHash_none cfg _ _ rfl, show (truncated b).precision = 4 from rfl, he, ok_bind,
        Plus.maybeMergeSparse, mulUsize_ok cfg (by simp [truncated, hashSetInsert]; omega), ok_bind,
        if_pos (by simp [truncated, hashSetInsert])]
      exact truncated_mergeSparse b _ _
    have h2 : (Plus.api cfg ln c).insert (ords 0).1 k (truncated b) x = .error .indexOutOfBounds := by
      cases k <;> exact h1
    simp [run, step, h2, bind, Except.bind]
  · have h1 : (Plus.api cfg ln c).count (ords 0).1 (truncated b) = .error .indexOutOfBounds := by
      rw [show (Plus.api cfg ln c).count = Plus.count cfg ln from rfl, Plus.count]
      simp only [show (truncated b).registers = none from rfl]
      rw [show truncated b = { truncated b with tmpset := [] } from rfl, truncated_mergeSparse]
      rfl
    simp [run, step, h1, bind, Except.bind]
  · have h1 : (Plus.api cfg ln c).merge (ords 0).1 (ords 0).2 (truncated b) (truncated b) =
        .error .indexOutOfBounds := by
      rw [show (Plus.api cfg ln c).merge = Plus.merge cfg from rfl, Plus.merge_none_none cfg _ _ (by simp) rfl rfl, truncated_toList]
      rfl
    simp [run, step, h1, bind, Except.bind]

/-- **C36 is false for the code.** On every target and with every builder that survives
serialisation there is a payload, accepted by `Deserialize`, giving a sketch on which `insert` (of any
value), `count` and `merge` (with itself) all panic. -/
theorem C36_plus_refuted (hb : 32 ≤ cfg.usizeBits) {b : I → U64} (hc : c.RoundTrips b) :
    ∃ v s, Serde.dePlus cfg c v = some s ∧
      (∀ k x, run (Plus.api cfg ln c) ords 0 [s] [.insert k 0 x] = .error .indexOutOfBounds) ∧
      run (Plus.api cfg ln c) ords 0 [s] [.count 0] = .error .indexOutOfBounds ∧
      run (Plus.api cfg ln c) ords 0 [s] [.merge 0 0] = .error .indexOutOfBounds :=
  ⟨_, _, truncated_accepted hb hc, truncated_panics hb b⟩

/-- **C36 is false for the code,** for `HyperLogLogPF`: there is an accepted payload giving a sketch
on which every `insert` panics, as does merging any well-formed sketch of the same precision into it. -/
theorem C36_pf_refuted (hb : 32 ≤ cfg.usizeBits) {b : I → U64} (hc : c.RoundTrips b) :
    ∃ v s, Serde.dePF cfg c v = some s ∧
      (∀ k x, run (PF.api cfg ln c) ords 0 [s] [.insert k 0 x] = .error .indexOutOfBounds) ∧
      ∀ t, GoodPF t → t.precision = s.precision →
        run (PF.api cfg ln c) ords 0 [s, t] [.merge 0 1] = .error .indexOutOfBounds := by
  have h32 : 2 ^ 32 ≤ 2 ^ cfg.usizeBits := Nat.pow_le_pow_right (by norm_num) hb
  refine ⟨Serde.serPF c (noWords b), noWords b, ?_, ?_, ?_⟩
  · exact Serde.dePF_serPF cfg (by exact hc) (by simp [noWords]) (by simp only [noWords]; omega)
      (by simp only [noWords]; omega) (by simp only [noWords]; omega)
  · intro k x
    have h1 : PF.insertHash cfg (noWords b) (b x) = .error .indexOutOfBounds := by
      simp only [PF.insertHash, show (noWords b).precision = 4 from rfl]
      rw [subU8_ok cfg (by omega) (by norm_num), ok_bind, shr_ok cfg _ (by omega), ok_bind,
        shl_ok cfg _ (by omega), ok_bind, subU8_ok cfg (by omega) (by omega), ok_bind,
        shl_ok cfg _ (by omega), ok_bind]
      rfl
    have h2 : (PF.api cfg ln c).insert (ords 0).1 k (noWords b) x = .error .indexOutOfBounds := by
      cases k <;> exact h1
    simp [run, step, h2, bind, Except.bind]
  · intro t ht hp
    have h1 : (PF.api cfg ln c).merge (ords 0).1 (ords 0).2 (noWords b) t =
        .error .indexOutOfBounds := by
      obtain ⟨f, hf⟩ := PF.good_rep ht
      have hlen := hf.length_iter (Or.inl rfl)
      change PF.merge cfg _ _ = _
      rw [PF.merge, if_neg (by rw [hp]; simp), show PF.SIZE = 5 from rfl]
      rw [hp] at hlen
      cases hi : t.registers.iter 5 with
      | nil => rw [hi] at hlen; simp [noWords] at hlen
      | cons v vs => rfl
    simp [run, step, h1, bind, Except.bind]

/-- Non-vacuity of the partial theorems: a payload that was never produced by the crate (its
registers exceed what any insertion could give) and passes the checks. -/
example (b : I → U64) : GoodPF ⟨b, 16, 4, ⟨[0x3fffffff#32, 0#32, 0#32], 16, 10⟩⟩ := by
  refine ⟨by norm_num, by norm_num, rfl, rfl, by simp, ?_⟩
  show 10 = ((List.range 16).map (packed 5 [0x3fffffff, 0, 0])).count 0
  decide +kernel

/-- Non-vacuity for `HyperLogLogPlus`: two codes in the list, another one in the temporary set. -/
example (b : I → U64) : GoodPlus
    ⟨b, 16, (2 ^ 16, 2 ^ 24, 52428), [65539#32], ⟨2, 1026#32, [3#8, 255#8, 7#8]⟩, none⟩ := by
  have hc : capacity 16 = 52428 := by decide
  refine ⟨by norm_num, by norm_num, by simp [hc], ⟨[3, 1026], by simp, ?_, rfl, rfl, ?_⟩, ?_, ?_, ?_, ?_⟩
  · simp [GoodCode]
  · simp [gapBytes, varBytes]
  · simp [hc]
  · simp
  · simp [GoodCode]
  · simp [hc]

end HLL
