import Verif.Proofs.Generic
import Verif.Props.HistoryPF

/-! # Properties of reachable states: C01, C02, C13, C14, C16, C19, C20, C38 -/

namespace HLL
open Spec

variable {I : Type} {cfg : Cfg} {ln : F64 → F64} {c : Serde.Codec I}
  {ords : Nat → IterOrder × IterOrder} {ops : List (Op I)} {i : Nat}

/-- `s` is sketch number `i` after running `ops`, and `a` is its meaning. -/
def ReachPlus (cfg : Cfg) (ln : F64 → F64) (c : Serde.Codec I) (ords : Nat → IterOrder × IterOrder)
    (ops : List (Op I)) (i : Nat) (s : Plus I) (a : Abs I) : Prop :=
  ∃ st os, run (Plus.api cfg ln c) ords 0 [] ops = .ok (st, os) ∧ st[i]? = some s ∧
    (contents 64 18 ops)[i]? = some a

/-- `s` is sketch number `i` after running `ops`, and `a` is its meaning. -/
def ReachPF (cfg : Cfg) (ln : F64 → F64) (c : Serde.Codec I) (ords : Nat → IterOrder × IterOrder)
    (ops : List (Op I)) (i : Nat) (s : PF I) (a : Abs I) : Prop :=
  ∃ st os, run (PF.api cfg ln c) ords 0 [] ops = .ok (st, os) ∧ st[i]? = some s ∧
    (contents 32 16 ops)[i]? = some a

theorem ReachPlus.means {s : Plus I} {a : Abs I} (h : Supported cfg c ops)
    (hr : ReachPlus cfg ln c ords ops i s a) :
    Plus.Rep a.p s a.S ∧ s.builder = a.builder ∧ 2 * a.p < cfg.usizeBits := by
  obtain ⟨st, os, h1, h2, h3⟩ := hr
  obtain ⟨st', h4, h5⟩ := (Plus.sim cfg h.bits ln c _).run_ok ords ops (h.allowed le_rfl)
  rw [h1] at h4
  cases h4
  have := h5.get i
  rw [h2, h3] at this
  cases this with
  | some h => exact ⟨h.1, h.2.1, h.2.2.1⟩

theorem ReachPF.means {s : PF I} {a : Abs I} (h : Supported cfg c ops)
    (hr : ReachPF cfg ln c ords ops i s a) :
    PF.Rep a.p s a.S ∧ s.builder = a.builder ∧ 2 * a.p < cfg.usizeBits := by
  obtain ⟨st, os, h1, h2, h3⟩ := hr
  obtain ⟨st', h4, h5⟩ := (PF.sim cfg ln c _).run_ok ords ops (h.allowed (by norm_num))
  rw [h1] at h4
  cases h4
  have := h5.get i
  rw [h2, h3] at this
  cases this with
  | some h => exact ⟨h.1, h.2.1, h.2.2.1⟩

/-- Every sketch the specification knows of exists. -/
theorem reachPlus_exists (h : Supported cfg c ops) {a : Abs I}
    (ha : (contents 64 18 ops)[i]? = some a) : ∃ s, ReachPlus cfg ln c ords ops i s a := by
  obtain ⟨st', h4, h5⟩ := (Plus.sim cfg h.bits ln c _).run_ok ords ops (h.allowed le_rfl)
  have := h5.get i
  rw [ha] at this
  generalize hx : st'[i]? = x at this
  cases this with
  | some h => exact ⟨_, st', _, h4, hx, ha⟩

/-- Every sketch the specification knows of exists. -/
theorem reachPF_exists (h : Supported cfg c ops) {a : Abs I}
    (ha : (contents 32 16 ops)[i]? = some a) : ∃ s, ReachPF cfg ln c ords ops i s a := by
  obtain ⟨st', h4, h5⟩ := (PF.sim cfg ln c _).run_ok ords ops (h.allowed (by norm_num))
  have := h5.get i
  rw [ha] at this
  generalize hx : st'[i]? = x at this
  cases this with
  | some h => exact ⟨_, st', _, h4, hx, ha⟩

/-- Conversely, every sketch in the store has a meaning. -/
theorem reachPlus_of_store (h : Supported cfg c ops) {st : List (Plus I)} {os : List Out}
    (hr : run (Plus.api cfg ln c) ords 0 [] ops = .ok (st, os)) {s : Plus I} (hs : st[i]? = some s) :
    ∃ a, ReachPlus cfg ln c ords ops i s a := by
  obtain ⟨st', h4, h5⟩ := (Plus.sim cfg h.bits ln c _).run_ok ords ops (h.allowed le_rfl)
  rw [hr] at h4
  cases h4
  have := h5.get i
  rw [hs] at this
  generalize hx : (contents 64 18 ops)[i]? = x at this
  cases this with
  | some h => exact ⟨_, st, _, hr, hs, hx⟩

/-- The examples of reachable sketches used below: sketch 0 of `demoPlus` and of `demoPF`. -/
example : (∃ s a, ReachPlus Cfg.debug64 ln (noCodec Nat) ords demoPlus 0 s a ∧ a.S.card = 3) ∧
    ∃ s a, ReachPF Cfg.debug64 ln (noCodec Nat) ords demoPF 0 s a ∧ a.S.card = 3 := by
  refine ⟨?_, ?_⟩
  · obtain ⟨s, hs⟩ := reachPlus_exists (ln := ln) (ords := ords) (i := 0)
      (supported64 (cfg := Cfg.debug64) rfl (noCodec Nat) (ops := demoPlus) (by simp [demoPlus])) rfl
    exact ⟨s, _, hs, by decide⟩
  · obtain ⟨s, hs⟩ := reachPF_exists (ln := ln) (ords := ords) (i := 0)
      (supported64 (cfg := Cfg.debug64) rfl (noCodec Nat) (ops := demoPF) (by simp [demoPF])) rfl
    exact ⟨s, _, hs, by decide⟩

/-- A program that makes a sketch of precision 4 dense. -/
def demoDense : List (Op Nat) :=
  .new 4 (fun n => (BitVec.ofNat 64 n) <<< 39) ::
    (List.range 5).map fun n => .insert .insert 0 (n * 1000000)

/-- Dense sketches are reachable (the case the theorems on registers are about). -/
theorem demoDense_dense : ∃ s a r,
    ReachPlus Cfg.debug64 id (noCodec Nat) (fun _ => (IterOrder.id, IterOrder.id)) demoDense 0 s a ∧
    s.registers = some r ∧ a.S.card = 5 := by
  have h : (match run (Plus.api Cfg.debug64 id (noCodec Nat))
        (fun _ => (IterOrder.id, IterOrder.id)) 0 [] demoDense with
      | .ok (st, _) => (st[0]?.map Plus.isSparse == some false)
      | .error _ => false) = true := by decide +kernel
  obtain ⟨s, st, os, h1, h2, h3⟩ := reachPlus_exists (ln := id) (i := 0)
    (ords := fun _ => (IterOrder.id, IterOrder.id))
    (supported64 (cfg := Cfg.debug64) rfl (noCodec Nat) (ops := demoDense)
      (by simp [demoDense, List.range, List.range.loop])) rfl
  rw [h1] at h
  simp only [h2, Option.map_some] at h
  cases hr : s.registers with
  | none => simp [Plus.isSparse, hr] at h
  | some r => exact ⟨s, _, r, ⟨st, os, h1, h2, h3⟩, hr, by decide⟩

/-! ## C14, C13, C16: registers -/

/-- **C14.** In dense mode register `j` holds the maximal rank of the hashes in bucket `j`. -/
theorem C14_plus_registers {s : Plus I} {a : Abs I} (h : Supported cfg c ops)
    (hr : ReachPlus cfg ln c ords ops i s a) {r : Registers} (hd : s.registers = some r) :
    (r.iter 6).map BitVec.toNat = regs 64 a.p a.S := by
  obtain ⟨⟨_, h1⟩, _, _⟩ := hr.means h
  rcases h1 with ⟨L, h2, _⟩ | ⟨r', h2⟩
  · rw [h2.regs] at hd; cases hd
  · rw [h2.regs] at hd
    cases hd
    exact h2.rep.iter_eq (Or.inr rfl)

/-- **C14** for `HyperLogLogPF`, on the low 32 bits of the hashes. -/
theorem C14_pf_registers {s : PF I} {a : Abs I} (h : Supported cfg c ops)
    (hr : ReachPF cfg ln c ords ops i s a) :
    (s.registers.iter 5).map BitVec.toNat = regs 32 a.p a.S :=
  (hr.means h).1.rep.iter_eq (Or.inl rfl)

/-- A dense sketch that has seen nothing yet. -/
def emptyDense (cfg : Cfg) (p : Nat) (b : I → U64) : R (Plus I) := do
  let r ← Registers.withCount cfg 6 (2 ^ p)
  pure ⟨b, p, (2 ^ p, 2 ^ 24, capacity p), [], DifIntVec.new, some r⟩

/-- Insertion of hashes one after the other. -/
def insertHashes (cfg : Cfg) (ord : IterOrder) (hs : List U64) (s : Plus I) : R (Plus I) :=
  hs.foldlM (Plus.insertHash cfg ord) s

/-- The dense insertion path, without any condition on how the sketch became dense. -/
theorem insertHash_dense (cfg : Cfg) (hcfg : 32 ≤ cfg.usizeBits) (ord : IterOrder) {p : Nat}
    (hp1 : 4 ≤ p) (hp2 : p ≤ 18) {s : Plus I} {r : Registers} {S : Finset Nat}
    (hs : s.registers = some r) (hp : s.precision = p)
    (hr : Registers.Rep 6 r (2 ^ p) (reg 64 p S)) (x : U64) :
    ∃ s' r', Plus.insertHash cfg ord s x = .ok s' ∧ s'.registers = some r' ∧ s'.precision = p ∧
      Registers.Rep 6 r' (2 ^ p) (reg 64 p (insert x.toNat S)) := by
  have hb1 : 2 ^ p ≤ 2 ^ 18 := Nat.pow_le_pow_right (by norm_num) hp2
  have hb2 : 2 ^ 32 ≤ 2 ^ cfg.usizeBits := Nat.pow_le_pow_right (by norm_num) hcfg
  have hxb : (x >>> (64 - p)).toNat = bucket 64 p x.toNat := by
    rw [BitVec.toNat_ushiftRight, Nat.shiftRight_eq_div_pow, bucket]
  have hbl := bucket_lt (w := 64) (p := p) (by omega) x.isLt
  have hlz := leadingZeros_guard x (p := p) (by omega) (by omega)
  have hrk := rank_le 64 p x.toNat
  have hz : (BitVec.ofNat 32 (1 + leadingZeros (x <<< p ||| 1#64 <<< (p - 1)))).toNat =
      rank 64 p x.toNat := by
    rw [hlz, BitVec.toNat_ofNat]
    exact Nat.mod_eq_of_lt (by unfold rank at hrk; omega)
  obtain ⟨r', h1, h2⟩ := hr.setGreater (Or.inr rfl) cfg hbl _ (by rw [hz]; omega) (by omega)
  rw [hz, ← reg_insert] at h2
  refine ⟨{ s with registers := some r' }, r', ?_, rfl, hp, h2⟩
  rw [Plus.insertHash, hs]
  simp only
  rw [hp, subU8_ok cfg (by omega) (by norm_num), ok_bind, shr_ok cfg x (by omega), ok_bind,
    shl_ok cfg x (by omega), ok_bind, subU8_ok cfg (by omega) (by omega), ok_bind,
    shl_ok cfg _ (by omega), ok_bind]
  simp only [show Plus.SIZE = 6 from rfl]
  rw [hxb, Nat.mod_eq_of_lt (by omega), h1]
  rfl

theorem insertHashes_dense (cfg : Cfg) (hcfg : 32 ≤ cfg.usizeBits) (ord : IterOrder) {p : Nat}
    (hp1 : 4 ≤ p) (hp2 : p ≤ 18) : ∀ (hs : List U64) {s : Plus I} {r : Registers} {S : Finset Nat},
    s.registers = some r → s.precision = p → Registers.Rep 6 r (2 ^ p) (reg 64 p S) →
    ∃ s' r', insertHashes cfg ord hs s = .ok s' ∧ s'.registers = some r' ∧
      Registers.Rep 6 r' (2 ^ p) (reg 64 p (S ∪ (hs.map BitVec.toNat).toFinset))
  | [], s, r, S, h1, _, h3 => ⟨s, r, rfl, h1, by simpa using h3⟩
  | x :: hs, s, r, S, h1, h2, h3 => by
    obtain ⟨s1, r1, e1, e2, e3, e4⟩ := insertHash_dense cfg hcfg ord hp1 hp2 h1 h2 h3 x
    obtain ⟨s2, r2, e5, e6, e7⟩ := insertHashes_dense cfg hcfg ord hp1 hp2 hs e2 e3 e4
    refine ⟨s2, r2, ?_, e6, ?_⟩
    · rw [insertHashes, List.foldlM_cons, e1, ok_bind]; exact e5
    · have : S ∪ ((x :: hs).map BitVec.toNat).toFinset =
          insert x.toNat S ∪ (hs.map BitVec.toNat).toFinset := by
        rw [List.map_cons, List.toFinset_cons]
        ext y; simp only [Finset.mem_union, Finset.mem_insert]; tauto
      rw [this]; exact e7

/-- **C13.** Switching representation loses nothing: a dense sketch, however and whenever it became
dense, has the registers of a sketch that was dense from the start and into which the same hashes
were inserted directly. -/
theorem C13_switch_lossless {s : Plus I} {a : Abs I} (h : Supported cfg c ops)
    (hr : ReachPlus cfg ln c ords ops i s a) {r : Registers} (hd : s.registers = some r)
    {hs : List U64} (hS : (hs.map BitVec.toNat).toFinset = a.S) (ord : IterOrder) :
    ∃ s₀ s' r', emptyDense cfg a.p a.builder = .ok s₀ ∧ insertHashes cfg ord hs s₀ = .ok s' ∧
      s'.registers = some r' ∧ r'.iter 6 = r.iter 6 ∧ r'.zeros = r.zeros := by
  obtain ⟨⟨hb, hrep⟩, _, _⟩ := hr.means h
  have hbits := h.bits
  obtain ⟨hb1, hb2⟩ := Plus.pow_bounds cfg hbits hb.hp2
  obtain ⟨r0, h1, h2⟩ := Registers.rep_withCount cfg (S := 6) (Or.inr rfl) (n := 2 ^ a.p) (by omega)
  have h2' : Registers.Rep 6 r0 (2 ^ a.p) (reg 64 a.p ∅) :=
    h2.congr (fun j _ => (reg_empty 64 a.p j).symm)
  obtain ⟨s', r', h3, h4, h5⟩ := insertHashes_dense (I := I) cfg hbits ord hb.hp1 hb.hp2 hs
    (s := ⟨a.builder, a.p, (2 ^ a.p, 2 ^ 24, capacity a.p), [], DifIntVec.new, some r0⟩) rfl rfl h2'
  rw [Finset.empty_union, hS] at h5
  have hdr : Registers.Rep 6 r (2 ^ a.p) (reg 64 a.p a.S) := by
    rcases hrep with ⟨L, h2, _⟩ | ⟨r', h2⟩
    · rw [h2.regs] at hd; cases hd
    · rw [h2.regs] at hd
      cases hd
      exact h2.rep
  refine ⟨_, s', r', ?_, h3, h4, ?_, by rw [h5.zeros_eq, hdr.zeros_eq]⟩
  · rw [emptyDense, h1]; rfl
  · have := (h5.iter_eq (Or.inr rfl)).trans (hdr.iter_eq (Or.inr rfl)).symm
    exact List.map_injective_iff.2 (fun x y hxy => BitVec.eq_of_toNat_eq hxy) this

/-- **C16.** The zero counter of a dense sketch is the number of its registers that are zero. -/
theorem C16_plus_zeros {s : Plus I} {a : Abs I} (h : Supported cfg c ops)
    (hr : ReachPlus cfg ln c ords ops i s a) {r : Registers} (hd : s.registers = some r) :
    r.zeros = (r.iter 6).count 0 ∧ r.zeros = zeros 64 a.p a.S := by
  obtain ⟨⟨_, h1⟩, _, _⟩ := hr.means h
  rcases h1 with ⟨L, h2, _⟩ | ⟨r', h2⟩
  · rw [h2.regs] at hd; cases hd
  · rw [h2.regs] at hd
    cases hd
    refine ⟨?_, h2.rep.zeros_eq⟩
    rw [h2.rep.zeros_count, ← h2.rep.iter_eq (Or.inr rfl)]
    exact List.count_map_of_injective _ BitVec.toNat (fun x y hxy => BitVec.eq_of_toNat_eq hxy) 0

/-- **C16** for `HyperLogLogPF`. -/
theorem C16_pf_zeros {s : PF I} {a : Abs I} (h : Supported cfg c ops)
    (hr : ReachPF cfg ln c ords ops i s a) :
    s.registers.zeros = (s.registers.iter 5).count 0 ∧ s.registers.zeros = zeros 32 a.p a.S := by
  have h2 := (hr.means h).1.rep
  refine ⟨?_, h2.zeros_eq⟩
  rw [h2.zeros_count, ← h2.iter_eq (Or.inl rfl)]
  exact List.count_map_of_injective _ BitVec.toNat (fun x y hxy => BitVec.eq_of_toNat_eq hxy) 0

/-- A computation that returns has returned at its first step. -/
theorem bind_ok {α β : Type _} {x : R α} {f : α → R β} {b : β} (h : (x >>= f) = .ok b) :
    ∃ a, x = .ok a ∧ f a = .ok b := by
  cases x with
  | error e => cases h
  | ok a => exact ⟨a, rfl, h⟩

/-! ## C19, C20: storage and representation -/

/-- **C19.** Storage is bounded in every reachable sketch. -/
theorem C19_storage_bounded {s : Plus I} {a : Abs I} (h : Supported cfg c ops)
    (hr : ReachPlus cfg ln c ords ops i s a) :
    s.sparse.len ≤ 4 * 2 ^ s.precision / 5 ∧
    s.tmpset.length ≤ 4 * 2 ^ s.precision / 500 ∧
    ∀ r, s.registers = some r → s.tmpset = [] ∧ s.sparse.len = 0 ∧
      r.buf.length = (2 ^ s.precision + 4) / 5 := by
  obtain ⟨⟨hb, h1⟩, _, _⟩ := hr.means h
  rw [hb.prec]
  rcases h1 with ⟨L, h2, h3, h4⟩ | ⟨r', h2⟩
  · unfold capacity at h3 h4
    exact ⟨h3, by omega, fun r hd => by rw [h2.regs] at hd; cases hd⟩
  · refine ⟨by rw [h2.sparse]; simp [DifIntVec.len, DifIntVec.new, VarIntVec.new],
      by rw [h2.tmp]; simp, fun r hd => ?_⟩
    rw [h2.regs] at hd
    cases hd
    refine ⟨h2.tmp, by rw [h2.sparse]; rfl, ?_⟩
    exact h2.rep.len_eq

/-- **C20.** Right after `count`, a sketch is sparse if and only if the encoding of the codes of its
hashes fits in `4·2^p/5` bytes. -/
theorem C20_sparse_iff_fits {s : Plus I} {a : Abs I} (h : Supported cfg c ops)
    (hr : ReachPlus cfg ln c ords ops i s a) (ord : IterOrder) :
    ∃ s' x, Plus.count cfg ln ord s = .ok (s', x) ∧
      (s'.isSparse = true ↔ encSize (codes a.p a.S) ≤ 4 * 2 ^ a.p / 5) := by
  obtain ⟨h1, _, h3⟩ := hr.means h
  obtain ⟨s', e1, ⟨hb, e2⟩, e3⟩ := Plus.count_ok cfg h.bits ln ord (fun _ => h3) h1
  refine ⟨s', _, e1, ?_⟩
  rcases e2 with ⟨L, h4, h5, h6⟩ | ⟨r, h4⟩
  · simp only [Plus.isSparse, h4.regs, Option.isNone_none, true_iff]
    exact h6
  · simp only [Plus.isSparse, h4.regs, Option.isNone_some, Bool.false_eq_true, false_iff]
    exact h4.big

theorem insertHash_keeps_dense {ord : IterOrder} {s s' : Plus I} {x : U64}
    (hd : s.registers.isSome) (h : Plus.insertHash cfg ord s x = .ok s') : s'.registers.isSome := by
  obtain ⟨r, hr⟩ := Option.isSome_iff_exists.1 hd
  rw [Plus.insertHash, hr] at h
  simp only at h
  obtain ⟨_, _, h⟩ := bind_ok h
  obtain ⟨_, _, h⟩ := bind_ok h
  obtain ⟨_, _, h⟩ := bind_ok h
  obtain ⟨_, _, h⟩ := bind_ok h
  obtain ⟨_, _, h⟩ := bind_ok h
  obtain ⟨_, _, h⟩ := bind_ok h
  cases h; rfl

theorem merge_keeps_dense {o o' : IterOrder} {s t s' : Plus I} {x : Except HyperLogLogError Unit}
    (hd : s.registers.isSome) (h : Plus.merge cfg o o' s t = .ok (s', x)) : s'.registers.isSome := by
  obtain ⟨r, hr⟩ := Option.isSome_iff_exists.1 hd
  by_cases hp : s.precision ≠ t.precision
  · rw [Plus.merge_error cfg o o' hp] at h
    cases h; exact hd
  · cases ht : t.registers with
    | some rt =>
      rw [Plus.merge_some cfg o o' hp ht] at h
      obtain ⟨_, _, h⟩ := bind_ok h
      obtain ⟨_, _, h⟩ := bind_ok h
      obtain ⟨_, _, h⟩ := bind_ok h
      cases h; rfl
    | none =>
      rw [Plus.merge, if_neg hp, ht] at h
      simp only [hr] at h
      obtain ⟨_, _, h⟩ := bind_ok h
      obtain ⟨_, _, h⟩ := bind_ok h
      obtain ⟨_, _, h⟩ := bind_ok h
      cases h; rfl

theorem count_keeps_dense {ord : IterOrder} {s s' : Plus I} {x : F64}
    (hd : s.registers.isSome) (h : Plus.count cfg ln ord s = .ok (s', x)) : s'.registers.isSome := by
  obtain ⟨r, hr⟩ := Option.isSome_iff_exists.1 hd
  rw [Plus.count, hr] at h
  simp only [pure_eq_ok, ok_bind, hr] at h
  obtain ⟨_, _, h⟩ := bind_ok h
  cases h; exact hd

theorem step_keeps_dense {o : IterOrder × IterOrder} {st st' : List (Plus I)} {op : Op I} {x : Out}
    (h : step (Plus.api cfg ln c) o st op = .ok (st', x)) {s : Plus I} (hs : st[i]? = some s)
    (hd : s.registers.isSome) : ∃ s', st'[i]? = some s' ∧ s'.registers.isSome := by
  have hi := lt_of_get hs
  have hsnoc : ∀ t, ∃ s', (st ++ [t])[i]? = some s' ∧ s'.registers.isSome :=
    fun t => ⟨s, by rw [List.getElem?_append_left hi, hs], hd⟩
  have hset : ∀ j t, (i = j → t.registers.isSome) →
      ∃ s', (st.set j t)[i]? = some s' ∧ s'.registers.isSome := by
    intro j t ht
    by_cases hij : i = j
    · subst hij
      exact ⟨t, List.getElem?_set_self hi, ht rfl⟩
    · exact ⟨s, by rw [List.getElem?_set_ne (Ne.symm hij), hs], hd⟩
  cases op with
  | new p b =>
    simp only [step] at h
    obtain ⟨r, _, h⟩ := bind_ok h
    cases r <;> cases h
    · exact ⟨s, hs, hd⟩
    · exact hsnoc _
  | clone j =>
    simp only [step] at h
    generalize st[j]? = t at h
    cases t <;> cases h
    · exact ⟨s, hs, hd⟩
    · exact hsnoc _
  | insert k j v =>
    simp only [step] at h
    cases hj : st[j]? with
    | none => rw [hj] at h; cases h; exact ⟨s, hs, hd⟩
    | some t =>
      rw [hj] at h
      obtain ⟨t', ht', h⟩ := bind_ok h
      cases h
      refine hset _ _ ?_
      rintro rfl
      rw [hs] at hj; cases hj
      refine insertHash_keeps_dense (cfg := cfg) (ord := o.1) (x := s.builder v) hd ?_
      cases k <;> exact ht'
  | merge j l =>
    simp only [step] at h
    cases hj : st[j]? with
    | none => rw [hj] at h; cases h; exact ⟨s, hs, hd⟩
    | some t =>
      cases hl : st[l]? with
      | none => rw [hj, hl] at h; cases h; exact ⟨s, hs, hd⟩
      | some u =>
        rw [hj, hl] at h
        obtain ⟨⟨t', r⟩, ht', h⟩ := bind_ok h
        cases h
        refine hset _ _ ?_
        rintro rfl
        rw [hs] at hj; cases hj
        exact merge_keeps_dense hd ht'
  | count j =>
    simp only [step] at h
    cases hj : st[j]? with
    | none => rw [hj] at h; cases h; exact ⟨s, hs, hd⟩
    | some t =>
      rw [hj] at h
      obtain ⟨⟨t', r⟩, ht', h⟩ := bind_ok h
      cases h
      refine hset _ _ ?_
      rintro rfl
      rw [hs] at hj; cases hj
      exact count_keeps_dense hd ht'
  | reload j =>
    simp only [step] at h
    cases hj : st[j]? with
    | none => rw [hj] at h; cases h; exact ⟨s, hs, hd⟩
    | some t =>
      rw [hj] at h
      obtain ⟨r, ht', h⟩ := bind_ok h
      cases r <;> cases h
      · exact ⟨s, hs, hd⟩
      · exact hsnoc _

/-- **C20.** The switch is one-way: a dense sketch stays dense under all operations, whatever the
program (no condition on how the store was obtained). -/
theorem C20_dense_is_forever : ∀ (ops : List (Op I)) (n : Nat) (st st' : List (Plus I))
    (os : List Out), run (Plus.api cfg ln c) ords n st ops = .ok (st', os) →
    ∀ s, st[i]? = some s → s.isSparse = false → ∃ s', st'[i]? = some s' ∧ s'.isSparse = false := by
  have key : ∀ (ops : List (Op I)) (n : Nat) (st st' : List (Plus I))
      (os : List Out), run (Plus.api cfg ln c) ords n st ops = .ok (st', os) →
      ∀ s, st[i]? = some s → s.registers.isSome → ∃ s', st'[i]? = some s' ∧ s'.registers.isSome := by
    intro ops
    induction ops with
    | nil => intro n st st' os h s hs hd; cases h; exact ⟨s, hs, hd⟩
    | cons op ops ih =>
      intro n st st' os h s hs hd
      rw [run] at h
      obtain ⟨⟨st1, o⟩, h1, h⟩ := bind_ok h
      obtain ⟨⟨st2, os'⟩, h2, h⟩ := bind_ok h
      cases h
      obtain ⟨s1, hs1, hd1⟩ := step_keeps_dense h1 hs hd
      exact ih _ _ _ _ h2 s1 hs1 hd1
  have hiff : ∀ s : Plus I, s.isSparse = false ↔ s.registers.isSome := by
    intro s; unfold Plus.isSparse; cases s.registers <;> simp
  intro ops n st st' os h s hs hd
  obtain ⟨s', h1, h2⟩ := key ops n st st' os h s hs ((hiff s).1 hd)
  exact ⟨s', h1, (hiff s').2 h2⟩

/-! ## C01, C02, C38: precisions -/

/-- **C01.** `HyperLogLogPlus::new` accepts exactly the precisions 4 to 18 and never panics, on
targets of at least 32 bits; the accepted sketch is empty: its first count is `0.0`, provided that
`ln 1.0 = 0.0`. -/
theorem C01_plus_new (hcfg : 32 ≤ cfg.usizeBits) (p : Nat) (b : I → U64) :
    (4 ≤ p ∧ p ≤ 18 → ∃ s, Plus.new cfg p b = .ok (.ok s) ∧ s.precision = p ∧ s.builder = b ∧
      ∀ ord, ln (.fin 1) = .fin 0 → ∃ s', Plus.count cfg ln ord s = .ok (s', .fin 0)) ∧
    (¬ (4 ≤ p ∧ p ≤ 18) → Plus.new cfg p b = .ok (.error .InvalidPrecision)) := by
  constructor
  · rintro ⟨h1, h2⟩
    obtain ⟨s, e1, e2, e3⟩ := Plus.new_ok cfg hcfg h1 h2 b
    refine ⟨s, e1, e2.1.prec, e3, fun ord hln => ?_⟩
    have hfit : fitsSparse p ∅ := by
      unfold fitsSparse codes encSize
      simp [gapsSize]
    obtain ⟨s', e4, _, _⟩ := Plus.count_ok cfg hcfg ln ord (fun hn => absurd hfit hn) e2.rep
    refine ⟨s', ?_⟩
    rw [e4, plusCount, if_pos hfit]
    have hd : F64.div (num (2 ^ 24)) (num (2 ^ 24 - (codes p ∅).card)) = .fin 1 := by
      simp only [codes, Finset.image_empty, Finset.card_empty, Nat.sub_zero, num]
      rw [F64.div_fin_nonneg (by positivity) (by positivity)]
      · rw [div_self (by positivity)]
        congr 1
        exact_mod_cast F64.rnd_natCast (K := ℚ) (n := 1) (by norm_num)
      · rw [div_self (by positivity)]; exact one_le_pow₀ (by norm_num)
    rw [linear, hd, hln, num, F64.mul_fin_nonneg (by positivity) le_rfl]
    · rw [mul_zero]
      have := F64.rnd_natCast (K := ℚ) (n := 0) (by norm_num)
      simp only [Nat.cast_zero] at this
      rw [this]
    · rw [mul_zero]; positivity
  · intro h
    exact Plus.new_error cfg (by omega) b

/-- **C02.** `HyperLogLogPF::new` accepts exactly the precisions 4 to 16 and never panics; the
accepted sketch has `2^p` registers, all zero. -/
theorem C02_pf_new (hcfg : 32 ≤ cfg.usizeBits) (p : Nat) (b : I → U64) :
    (4 ≤ p ∧ p ≤ 16 → ∃ s, PF.new cfg p b = .ok (.ok s) ∧ s.precision = p ∧ s.builder = b ∧
      (s.registers.iter 5).map BitVec.toNat = List.replicate (2 ^ p) 0) ∧
    (¬ (4 ≤ p ∧ p ≤ 16) → PF.new cfg p b = .ok (.error .InvalidPrecision)) := by
  constructor
  · rintro ⟨h1, h2⟩
    obtain ⟨s, e1, e2, e3⟩ := PF.new_ok cfg (by omega) h1 h2 b
    refine ⟨s, e1, e2.prec, e3, ?_⟩
    rw [e2.rep.iter_eq (Or.inl rfl)]
    rw [List.eq_replicate_iff]
    refine ⟨by simp, ?_⟩
    intro x hx
    obtain ⟨j, _, rfl⟩ := List.mem_map.1 hx
    exact reg_empty _ _ _
  · intro h
    exact PF.new_error cfg (by omega) b

example : ∃ ln : F64 → F64, ln (.fin 1) = .fin 0 := ⟨fun _ => .fin 0, rfl⟩

/-- **C38.** The precision-indexed tables are never missed: every reachable sketch has a precision
between 4 and 18, for which the linear counting threshold exists (its `unreachable!()` is not
reached) and both bias tables have an entry. -/
theorem C38_tables_defined {s : Plus I} {a : Abs I} (h : Supported cfg c ops)
    (hr : ReachPlus cfg ln c ords ops i s a) :
    4 ≤ s.precision ∧ s.precision ≤ 18 ∧ (∃ t, Plus.threshold s.precision = .ok t) ∧
      (∃ t, index Constants.RAW_ESTIMATE_DATA (s.precision - 4) = .ok t ∧ t ≠ []) ∧
      (∃ t, index Constants.BIAS_DATA (s.precision - 4) = .ok t ∧ t ≠ []) := by
  obtain ⟨⟨hb, _⟩, _, _⟩ := hr.means h
  rw [hb.prec]
  have h1 := hb.hp1
  have h2 := hb.hp2
  have hne : ∀ (T : List (List F64)), (∀ l ∈ T, l.length ≠ 0) → T.length = 15 →
      ∃ t, index T (a.p - 4) = .ok t ∧ t ≠ [] := by
    intro T hT hl
    have hlt : a.p - 4 < T.length := by omega
    refine ⟨T[a.p - 4], index_ok hlt, ?_⟩
    intro h0
    exact hT _ (List.getElem_mem hlt) (by rw [h0]; rfl)
  refine ⟨h1, h2, ⟨_, Plus.threshold_ok h1 h2⟩, hne _ ?_ ?_, hne _ ?_ ?_⟩
  all_goals decide +kernel

end HLL
