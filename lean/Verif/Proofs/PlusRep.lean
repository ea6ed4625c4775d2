import Verif.Proofs.Sparse
import Verif.Proofs.MergeRegs

/-! # Refinement of `HyperLogLogPlus`: a sketch represents a precision and a set of hashes -/

namespace HLL
namespace Plus
open Spec

variable {I : Type}

/-- The parts of a sketch that never change. -/
structure Base (p : Nat) (s : Plus I) (S : Finset Nat) : Prop where
  hp1 : 4 ≤ p
  hp2 : p ≤ 18
  prec : s.precision = p
  counts : s.counts = (2 ^ p, 2 ^ 24, capacity p)
  hashes : ∀ h ∈ S, h < 2 ^ 64

/-- A sparse sketch holding the codes of `S`, part of them possibly in the temporary set. -/
structure SparseRep (p : Nat) (s : Plus I) (S : Finset Nat) (L : List U32) : Prop where
  regs : s.registers = none
  enc : DifIntVec.Enc s.sparse L
  sorted : SortedLT L
  nodup : s.tmpset.Nodup
  mem : ∀ n, n ∈ codes p S ↔ n ∈ L.map BitVec.toNat ∨ n ∈ s.tmpset.map BitVec.toNat

/-- A dense sketch holding the registers of `S`. -/
structure DenseRep (p : Nat) (s : Plus I) (S : Finset Nat) (r : Registers) : Prop where
  regs : s.registers = some r
  rep : Registers.Rep 6 r (2 ^ p) (reg 64 p S)
  tmp : s.tmpset = []
  sparse : s.sparse = DifIntVec.new
  big : ¬ fitsSparse p S

/-- The refinement relation: `s` is a sketch of precision `p` that has seen the hashes `S`. -/
def Rep (p : Nat) (s : Plus I) (S : Finset Nat) : Prop :=
  Base p s S ∧
    ((∃ L, SparseRep p s S L ∧ s.sparse.len ≤ capacity p ∧ s.tmpset.length * 100 ≤ capacity p) ∨
     ∃ r, DenseRep p s S r)

/-- A sketch right after its temporary set has been flushed. -/
def Flushed (p : Nat) (s : Plus I) (S : Finset Nat) : Prop :=
  Base p s S ∧
    ((∃ L, SparseRep p s S L ∧ s.tmpset = [] ∧ fitsSparse p S) ∨ ∃ r, DenseRep p s S r)

theorem len_of_codes {d : DifIntVec} {L : List U32} (h : DifIntVec.Enc d L) (hs : SortedLT L)
    {C : Finset Nat} (hC : ∀ n, n ∈ L.map BitVec.toNat ↔ n ∈ C) : d.len = encSize C := by
  rw [h.len_eq, eq_sort_of_pairwise hs.map hC, encSize]

theorem SparseRep.len_eq {p : Nat} {s : Plus I} {S : Finset Nat} {L : List U32}
    (h : SparseRep p s S L) (ht : s.tmpset = []) : s.sparse.len = encSize (codes p S) := by
  apply len_of_codes h.enc h.sorted
  intro n
  rw [h.mem, ht]; simp

theorem Flushed.rep {p : Nat} {s : Plus I} {S : Finset Nat} (h : Flushed p s S) : Rep p s S := by
  refine ⟨h.1, ?_⟩
  rcases h.2 with ⟨L, h1, h2, h3⟩ | ⟨r, h1⟩
  · left
    refine ⟨L, h1, ?_, by simp [h2]⟩
    rw [h1.len_eq h2]; exact h3
  · exact Or.inr ⟨r, h1⟩

/-- Number of codes in a sparse buffer. -/
theorem length_le_len {d : DifIntVec} {L : List U32} (h : DifIntVec.Enc d L) : L.length ≤ d.len := by
  rw [h.len_eq]
  have := length_le_gapsSize (L.map BitVec.toNat) 0
  simpa using this

theorem pow_bounds (cfg : Cfg) (hcfg : 32 ≤ cfg.usizeBits) {p : Nat} (hp2 : p ≤ 18) :
    2 ^ p ≤ 2 ^ 18 ∧ 2 ^ 32 ≤ 2 ^ cfg.usizeBits :=
  ⟨Nat.pow_le_pow_right (by norm_num) hp2, Nat.pow_le_pow_right (by norm_num) hcfg⟩

/-- `sparse_to_normal` on a flushed sparse state gives the registers of the same set. -/
theorem sparseToNormal_ok (cfg : Cfg) (hcfg : 32 ≤ cfg.usizeBits) {p : Nat} {s : Plus I}
    {S : Finset Nat} {L : List U32} (hb : Base p s S) (h : SparseRep p s S L)
    (ht : s.tmpset = []) :
    ∃ s' r, sparseToNormal cfg s = .ok s' ∧ Base p s' S ∧ s'.builder = s.builder ∧
      s'.registers = some r ∧ Registers.Rep 6 r (2 ^ p) (reg 64 p S) ∧
      s'.tmpset = [] ∧ s'.sparse = DifIntVec.new := by
  obtain ⟨hb1, hb2⟩ := pow_bounds cfg hcfg hb.hp2
  obtain ⟨r0, h1, h2⟩ := Registers.rep_withCount cfg (S := 6) (Or.inr rfl) (n := 2 ^ p) (by omega)
  have h2' : Registers.Rep 6 r0 (2 ^ p) (reg 64 p ∅) :=
    h2.congr (fun j _ => (reg_empty 64 p j).symm)
  obtain ⟨r, U, h3, h4, h5, h6⟩ := setCodes_ok cfg hcfg hb.hp1 hb.hp2 L r0 ∅ S h2' (by simp)
    hb.hashes (fun c hc => (h.mem _).2 (Or.inl (List.mem_map_of_mem hc)))
  have hUS : codes p U = codes p S := by
    ext n
    rw [h6, h.mem, ht]
    simp [codes]
  rw [reg_eq_of_codes hb.hp1 hb.hp2 h5 hb.hashes hUS] at h4
  refine ⟨{ s with registers := some r, tmpset := [], sparse := s.sparse.clear }, r, ?_,
    ⟨hb.hp1, hb.hp2, hb.prec, hb.counts, hb.hashes⟩, rfl, rfl, h4, rfl, rfl⟩
  rw [sparseToNormal, hb.counts, hb.prec, h.enc.toList_eq cfg]
  simp only [show SIZE = 6 from rfl, h1, ok_bind, h3]
  rfl

/-- `merge_sparse` flushes the temporary set and switches representation exactly when the encoded
codes exceed the capacity. -/
theorem mergeSparse_ok (cfg : Cfg) (hcfg : 32 ≤ cfg.usizeBits) (ord : IterOrder) {p : Nat}
    {s : Plus I} {S : Finset Nat} {L : List U32} (hb : Base p s S) (h : SparseRep p s S L)
    (hL : s.sparse.len ≤ capacity p) (ht : s.tmpset.length ≤ 3 * capacity p) :
    ∃ s', mergeSparse cfg ord s = .ok s' ∧ Flushed p s' S ∧ s'.builder = s.builder := by
  obtain ⟨hb1, hb2⟩ := pow_bounds cfg hcfg hb.hp2
  have hcap := capacity_le hb.hp2
  have hLl := length_le_len h.enc
  have hperm := ord.perm s.tmpset
  have hperm2 := (sortCodes_perm (ord.apply s.tmpset)).trans hperm
  obtain ⟨d, L', h1, h2, h3, h4⟩ := mergeLoop_ok cfg (sortCodes (ord.apply s.tmpset)) L
    DifIntVec.new [] DifIntVec.enc_new (sortCodes_sorted (hperm.nodup_iff.2 h.nodup)) h.sorted
    List.Pairwise.nil (by simp) (by simp) (by rw [hperm2.length_eq]; simp; omega)
  have hmem : ∀ n, n ∈ codes p S ↔ n ∈ L'.map BitVec.toNat := by
    intro n
    rw [h.mem]
    simp only [List.mem_map, h4, hperm2.mem_iff, List.not_mem_nil, false_or]
    constructor
    · rintro (⟨a, ha, rfl⟩ | ⟨a, ha, rfl⟩)
      exacts [⟨a, Or.inr ha, rfl⟩, ⟨a, Or.inl ha, rfl⟩]
    · rintro ⟨a, ha | ha, rfl⟩
      exacts [Or.inr ⟨a, ha, rfl⟩, Or.inl ⟨a, ha, rfl⟩]
  let s1 : Plus I := { s with sparse := d, tmpset := [] }
  have hb' : Base p s1 S := ⟨hb.hp1, hb.hp2, hb.prec, hb.counts, hb.hashes⟩
  have hs1 : SparseRep p s1 S L' := ⟨h.regs, h2, h3, List.nodup_nil, by intro n; rw [hmem]; simp [s1]⟩
  have hlen : d.len = encSize (codes p S) := hs1.len_eq rfl
  have hun : mergeSparse cfg ord s =
      if d.len > capacity p then sparseToNormal cfg s1 else .ok s1 := by
    rw [mergeSparse, h.enc.toList_eq cfg]
    simp only [ok_bind, h1]
    have hc : s.counts.2.2 = capacity p := by rw [hb.counts]
    rw [← hc]
    rfl
  by_cases hfit : fitsSparse p S
  · refine ⟨s1, ?_, ⟨hb', Or.inl ⟨L', hs1, rfl, hfit⟩⟩, rfl⟩
    rw [hun, if_neg]
    rw [hlen]; unfold fitsSparse at hfit; omega
  · obtain ⟨s2, r, h5, h6, h7, h8, h9, h10, h11⟩ := sparseToNormal_ok cfg hcfg hb' hs1 rfl
    refine ⟨s2, ?_, ⟨h6, Or.inr ⟨r, h8, h9, h10, h11, hfit⟩⟩, h7⟩
    rw [hun, if_pos, h5]
    rw [hlen]; unfold fitsSparse at hfit; omega

theorem maybeMergeSparse_ok (cfg : Cfg) (hcfg : 32 ≤ cfg.usizeBits) (ord : IterOrder) {p : Nat}
    {s : Plus I} {S : Finset Nat} {L : List U32} (hb : Base p s S) (h : SparseRep p s S L)
    (hL : s.sparse.len ≤ capacity p) (ht : s.tmpset.length ≤ 3 * capacity p) :
    ∃ s', maybeMergeSparse cfg ord s = .ok s' ∧ Rep p s' S ∧ s'.builder = s.builder := by
  obtain ⟨hb1, hb2⟩ := pow_bounds cfg hcfg hb.hp2
  have hcap := capacity_le hb.hp2
  rw [maybeMergeSparse, mulUsize_ok cfg (by omega), ok_bind, hb.counts]
  simp only
  by_cases hc : s.tmpset.length * 100 > capacity p
  · rw [if_pos hc]
    obtain ⟨s', h1, h2, h3⟩ := mergeSparse_ok cfg hcfg ord hb h hL ht
    exact ⟨s', h1, h2.rep, h3⟩
  · rw [if_neg hc]
    exact ⟨s, rfl, ⟨hb, Or.inl ⟨L, h, hL, by omega⟩⟩, rfl⟩

theorem capacity_pos {p : Nat} (hp1 : 4 ≤ p) : 12 ≤ capacity p := by
  unfold capacity
  have : 2 ^ 4 ≤ 2 ^ p := Nat.pow_le_pow_right (by norm_num) hp1
  omega

theorem registerCount_ok (cfg : Cfg) (hcfg : 32 ≤ cfg.usizeBits) {p : Nat} (hp : p ≤ 24) :
    Common.registerCount cfg p = .ok (2 ^ p) := by
  rw [Common.registerCount, shlUsizeOne_ok cfg (by omega)]

/-- `new` on a supported precision. -/
theorem new_ok (cfg : Cfg) (hcfg : 32 ≤ cfg.usizeBits) {p : Nat} (hp1 : 4 ≤ p) (hp2 : p ≤ 18)
    (b : I → U64) :
    ∃ s, new cfg p b = .ok (.ok s) ∧ Flushed p s ∅ ∧ s.builder = b := by
  obtain ⟨hb1, hb2⟩ := pow_bounds cfg hcfg hp2
  refine ⟨{ builder := b, precision := p, counts := (2 ^ p, 2 ^ 24, capacity p), tmpset := [],
            sparse := DifIntVec.new, registers := none }, ?_,
          ⟨⟨hp1, hp2, rfl, rfl, by simp⟩, Or.inl ⟨[], ⟨rfl, DifIntVec.enc_new, List.Pairwise.nil,
            List.nodup_nil, by simp [codes]⟩, rfl, ?_⟩⟩, rfl⟩
  · rw [new, if_neg (by simp only [MIN_PRECISION, MAX_PRECISION]; omega),
      registerCount_ok cfg hcfg (by omega), ok_bind, subU8_ok cfg (by decide) (by decide), ok_bind,
      registerCount_ok cfg hcfg (by decide), ok_bind, Registers.sizeInBytes,
      mulUsize_ok cfg (by omega)]
    rfl
  · simp [fitsSparse, codes, encSize, gapsSize]

theorem new_error (cfg : Cfg) {p : Nat} (hp : p < 4 ∨ 18 < p) (b : I → U64) :
    new cfg p b = .ok (.error .InvalidPrecision) := by
  rw [new, if_pos (by simp only [MIN_PRECISION, MAX_PRECISION]; omega)]; rfl

theorem insertHash_none (cfg : Cfg) (ord : IterOrder) {s : Plus I} (x : U64)
    (h : s.registers = none) : insertHash cfg ord s x = (do
      let code ← encodeHash cfg s.precision x
      maybeMergeSparse cfg ord { s with tmpset := hashSetInsert s.tmpset code }) := by
  cases s; subst h; rfl

theorem merge_none_none {J : Type} (cfg : Cfg) (ordS ordO : IterOrder) {s : Plus I} {t : Plus J}
    (hp : ¬ (s.precision ≠ t.precision)) (hs : s.registers = none) (ht : t.registers = none) :
    merge cfg ordS ordO s t = (do
      let codes ← t.sparse.toList cfg
      let s ← maybeMergeSparse cfg ordS { s with
        tmpset := codes.foldl hashSetInsert ((ordO.apply t.tmpset).foldl hashSetInsert s.tmpset) }
      pure (s, .ok ())) := by
  rw [merge, if_neg hp]
  cases s; cases t; subst hs; subst ht; rfl

/-- The first step of `merge` with a dense `other`. -/
def toDense (cfg : Cfg) (ordS : IterOrder) (s : Plus I) : R (Plus I) :=
  match s.registers with
  | none => do
    let s ← mergeSparse cfg ordS s
    match s.registers with
    | none => sparseToNormal cfg s
    | some _ => pure s
  | some _ => pure s

theorem merge_some {J : Type} (cfg : Cfg) (ordS ordO : IterOrder) {s : Plus I} {t : Plus J} {r : Registers}
    (hp : ¬ (s.precision ≠ t.precision)) (ht : t.registers = some r) :
    merge cfg ordS ordO s t = (do
      let s ← toDense cfg ordS s
      let registers ← unwrap s.registers
      let registers ← mergeRegs cfg 0 (r.iter SIZE) registers
      pure ({ s with registers := some registers }, .ok ())) := by
  rw [merge, if_neg hp, ht]
  rfl

/-- `toDense` keeps the set and always gives registers. -/
theorem toDense_ok (cfg : Cfg) (hcfg : 32 ≤ cfg.usizeBits) (ordS : IterOrder) {p : Nat}
    {s : Plus I} {S : Finset Nat} (h : Rep p s S) :
    ∃ s1 r1, toDense cfg ordS s = .ok s1 ∧ Base p s1 S ∧ s1.builder = s.builder ∧
      s1.registers = some r1 ∧ Registers.Rep 6 r1 (2 ^ p) (reg 64 p S) ∧ s1.tmpset = [] ∧
      s1.sparse = DifIntVec.new := by
  obtain ⟨hb, hs⟩ := h
  have hcap := capacity_pos hb.hp1
  rcases hs with ⟨L, hs, hl, hst⟩ | ⟨r, hd⟩
  · rw [toDense, hs.regs]
    simp only
    obtain ⟨s1, h1, ⟨hb1, h2⟩, h3⟩ := mergeSparse_ok cfg hcfg ordS hb hs hl (by omega)
    rw [h1, ok_bind]
    rcases h2 with ⟨L1, hs1, ht1, _⟩ | ⟨r1, hd1⟩
    · rw [hs1.regs]
      obtain ⟨s2, r, h5, h6, h7, h8, h9, h10, h11⟩ := sparseToNormal_ok cfg hcfg hb1 hs1 ht1
      exact ⟨s2, r, h5, h6, h7.trans h3, h8, h9, h10, h11⟩
    · rw [hd1.regs]
      exact ⟨s1, r1, rfl, hb1, h3, hd1.regs, hd1.rep, hd1.tmp, hd1.sparse⟩
  · rw [toDense, hd.regs]
    exact ⟨s, r, rfl, hb, rfl, hd.regs, hd.rep, hd.tmp, hd.sparse⟩

/-- `insert` adds the hash to the represented set. -/
theorem insertHash_ok (cfg : Cfg) (hcfg : 32 ≤ cfg.usizeBits) (ord : IterOrder) {p : Nat}
    {s : Plus I} {S : Finset Nat} (h : Rep p s S) (x : U64) :
    ∃ s', insertHash cfg ord s x = .ok s' ∧ Rep p s' (Insert.insert x.toNat S) ∧
      s'.builder = s.builder := by
  obtain ⟨hb, h⟩ := h
  obtain ⟨hb1, hb2⟩ := pow_bounds cfg hcfg hb.hp2
  have hp1 := hb.hp1
  have hp2 := hb.hp2
  have hcap := capacity_pos hp1
  have hall : ∀ h ∈ Insert.insert x.toNat S, h < 2 ^ 64 := by
    intro h hh
    rcases Finset.mem_insert.1 hh with rfl | hh
    exacts [x.isLt, hb.hashes h hh]
  rcases h with ⟨L, hs, hl, ht⟩ | ⟨r, hd⟩
  · obtain ⟨c, hc, hcv⟩ := encodeHash_ok cfg hp1 hp2 x
    let s1 : Plus I := { s with tmpset := hashSetInsert s.tmpset c }
    have hb' : Base p s1 (Insert.insert x.toNat S) := ⟨hp1, hp2, hb.prec, hb.counts, hall⟩
    have hs1 : SparseRep p s1 (Insert.insert x.toNat S) L := by
      refine ⟨hs.regs, hs.enc, hs.sorted, nodup_hashSetInsert hs.nodup c, ?_⟩
      intro n
      have h1 : n ∈ List.map BitVec.toNat (hashSetInsert s.tmpset c) ↔
          n = c.toNat ∨ n ∈ s.tmpset.map BitVec.toNat := by
        simp only [List.mem_map, mem_hashSetInsert]
        constructor
        · rintro ⟨a, rfl | ha, rfl⟩
          exacts [Or.inl rfl, Or.inr ⟨a, ha, rfl⟩]
        · rintro (rfl | ⟨a, ha, rfl⟩)
          exacts [⟨c, Or.inl rfl, rfl⟩, ⟨a, Or.inr ha, rfl⟩]
      rw [h1, codes, Finset.image_insert, Finset.mem_insert, ← codes, hs.mem, hcv]
      tauto
    obtain ⟨s', h1, h2, h3⟩ := maybeMergeSparse_ok cfg hcfg ord hb' hs1 hl (by
      have := length_hashSetInsert s.tmpset c
      show (hashSetInsert s.tmpset c).length ≤ _
      omega)
    refine ⟨s', ?_, h2, h3⟩
    rw [← hb.prec] at hc
    rw [insertHash_none cfg ord x hs.regs, hc, ok_bind]
    exact h1
  · have hxb : (x >>> (64 - p)).toNat = bucket 64 p x.toNat := by
      rw [BitVec.toNat_ushiftRight, Nat.shiftRight_eq_div_pow, bucket]
    have hbl := bucket_lt (w := 64) (p := p) (by omega) x.isLt
    have hlz := leadingZeros_guard x (p := p) (by omega) (by omega)
    have hrk := rank_le 64 p x.toNat
    have hz : (BitVec.ofNat 32 (1 + leadingZeros (x <<< p ||| 1#64 <<< (p - 1)))).toNat =
        rank 64 p x.toNat := by
      rw [hlz, BitVec.toNat_ofNat]
      exact Nat.mod_eq_of_lt (by unfold rank at hrk; omega)
    obtain ⟨r', h1, h2⟩ := hd.rep.setGreater (Or.inr rfl) cfg hbl _ (by rw [hz]; omega) (by omega)
    rw [hz, ← reg_insert] at h2
    refine ⟨{ s with registers := some r' }, ?_, ⟨⟨hp1, hp2, hb.prec, hb.counts, hall⟩,
      Or.inr ⟨r', rfl, h2, hd.tmp, hd.sparse, ?_⟩⟩, rfl⟩
    · rw [insertHash, hd.regs]
      simp only
      rw [hb.prec, subU8_ok cfg (by omega) (by norm_num), ok_bind, shr_ok cfg x (by omega), ok_bind,
        shl_ok cfg x (by omega), ok_bind, subU8_ok cfg (by omega) (by omega), ok_bind,
        shl_ok cfg _ (by omega), ok_bind]
      simp only [show SIZE = 6 from rfl]
      rw [hxb, Nat.mod_eq_of_lt (by omega), h1]
      rfl
    · exact fun hf => hd.big (fitsSparse_mono (Finset.subset_insert _ _) hf)

/-- `merge` of two sketches of the same precision adds all hashes of the other one. -/
theorem merge_ok {J : Type} (cfg : Cfg) (hcfg : 32 ≤ cfg.usizeBits) (ordS ordO : IterOrder) {p : Nat}
    {s : Plus I} {t : Plus J} {S T : Finset Nat} (hs : Rep p s S) (ht : Rep p t T) :
    ∃ s', merge cfg ordS ordO s t = .ok (s', .ok ()) ∧ Rep p s' (S ∪ T) ∧
      s'.builder = s.builder := by
  obtain ⟨hb, hs⟩ := hs
  obtain ⟨hbt, ht⟩ := ht
  obtain ⟨hb1, hb2⟩ := pow_bounds cfg hcfg hb.hp2
  have hp1 := hb.hp1
  have hp2 := hb.hp2
  have hcap := capacity_pos hp1
  have hall : ∀ h ∈ S ∪ T, h < 2 ^ 64 := by
    intro h hh
    rcases Finset.mem_union.1 hh with hh | hh
    exacts [hb.hashes h hh, hbt.hashes h hh]
  have hprec : ¬ (s.precision ≠ t.precision) := by rw [hb.prec, hbt.prec]; simp
  rcases ht with ⟨M, ht, hM, htt⟩ | ⟨rt, hdt⟩
  · rcases hs with ⟨L, hs, hl, hst⟩ | ⟨r, hd⟩
    · -- both sparse
      obtain ⟨n1, m1, l1⟩ := foldl_hashSetInsert (ordO.apply t.tmpset) s.tmpset hs.nodup
      obtain ⟨n2, m2, l2⟩ := foldl_hashSetInsert M _ n1
      have hperm := ordO.perm t.tmpset
      let s1 : Plus I := { s with
        tmpset := M.foldl hashSetInsert ((ordO.apply t.tmpset).foldl hashSetInsert s.tmpset) }
      have hs1 : SparseRep p s1 (S ∪ T) L := by
        refine ⟨hs.regs, hs.enc, hs.sorted, n2, ?_⟩
        intro n
        rw [codes_union, Finset.mem_union, hs.mem, ht.mem]
        simp only [s1, List.mem_map, m2, m1, hperm.mem_iff]
        constructor
        · rintro ((⟨a, ha, rfl⟩ | ⟨a, ha, rfl⟩) | (⟨a, ha, rfl⟩ | ⟨a, ha, rfl⟩))
          exacts [Or.inl ⟨a, ha, rfl⟩, Or.inr ⟨a, Or.inl (Or.inl ha), rfl⟩,
            Or.inr ⟨a, Or.inr ha, rfl⟩, Or.inr ⟨a, Or.inl (Or.inr ha), rfl⟩]
        · rintro (⟨a, ha, rfl⟩ | ⟨a, (ha | ha) | ha, rfl⟩)
          exacts [Or.inl (Or.inl ⟨a, ha, rfl⟩), Or.inl (Or.inr ⟨a, ha, rfl⟩),
            Or.inr (Or.inr ⟨a, ha, rfl⟩), Or.inr (Or.inl ⟨a, ha, rfl⟩)]
      have hMl := length_le_len ht.enc
      obtain ⟨s', h1, h2, h3⟩ := maybeMergeSparse_ok cfg hcfg ordS
        (⟨hp1, hp2, hb.prec, hb.counts, hall⟩ : Base p s1 (S ∪ T)) hs1 hl (by
          rw [hperm.length_eq] at l1
          show (List.foldl hashSetInsert _ M).length ≤ _
          omega)
      refine ⟨s', ?_, h2, h3⟩
      rw [merge_none_none cfg ordS ordO hprec hs.regs ht.regs, ht.enc.toList_eq cfg, ok_bind]
      change (maybeMergeSparse cfg ordS s1 >>= _) = _
      rw [h1]
      rfl
    · -- dense ← sparse
      have hperm := ordO.perm t.tmpset
      obtain ⟨r1, U1, h1, h2, h3, h4⟩ := setCodes_ok cfg hcfg hp1 hp2 (ordO.apply t.tmpset) r S T
        hd.rep hb.hashes hbt.hashes
        (fun c hc => (ht.mem _).2 (Or.inr (List.mem_map_of_mem (hperm.mem_iff.1 hc))))
      obtain ⟨r2, U2, h5, h6, h7, h8⟩ := setCodes_ok cfg hcfg hp1 hp2 M r1 U1 T
        h2 h3 hbt.hashes
        (fun c hc => (ht.mem _).2 (Or.inl (List.mem_map_of_mem hc)))
      have hU : codes p U2 = codes p (S ∪ T) := by
        ext n
        rw [h8, h4, codes_union, Finset.mem_union, ht.mem]
        have hm : n ∈ (ordO.apply t.tmpset).map BitVec.toNat ↔ n ∈ t.tmpset.map BitVec.toNat :=
          (hperm.map _).mem_iff
        rw [hm]
        tauto
      rw [reg_eq_of_codes hp1 hp2 h7 hall hU] at h6
      refine ⟨{ s with registers := some r2 }, ?_, ⟨⟨hp1, hp2, hb.prec, hb.counts, hall⟩,
        Or.inr ⟨r2, rfl, h6, hd.tmp, hd.sparse, ?_⟩⟩, rfl⟩
      · rw [merge, if_neg hprec, ht.regs, hd.regs]
        simp only
        rw [hbt.prec, h1, ok_bind, ht.enc.toList_eq cfg, ok_bind, h5]
        rfl
      · exact fun hf => hd.big (fitsSparse_mono Finset.subset_union_left hf)
  · -- other dense
    obtain ⟨s1, r1, h1, h2, h3, h4, h5, h6, h7⟩ := toDense_ok cfg hcfg ordS (S := S) ⟨hb, hs⟩
    obtain ⟨r2, h8, h9⟩ := Registers.mergeFrom_iter (S := 6) (Or.inr rfl) cfg (by omega) h5 hdt.rep.toLanes
    refine ⟨{ s1 with registers := some r2 }, ?_, ⟨⟨hp1, hp2, h2.prec, h2.counts, hall⟩,
      Or.inr ⟨r2, rfl, h9.congr (fun j _ => (reg_union 64 p S T j).symm), h6, h7, ?_⟩⟩, h3⟩
    · rw [merge_some cfg ordS ordO hprec hdt.regs, h1, ok_bind, h4]
      simp only [unwrap, ok_bind, show SIZE = 6 from rfl]
      rw [Registers.plus_mergeRegs, h8]
      rfl
    · exact fun hf => hdt.big (fitsSparse_mono Finset.subset_union_right hf)

theorem merge_error {J : Type} (cfg : Cfg) (ordS ordO : IterOrder) {s : Plus I} {t : Plus J}
    (h : s.precision ≠ t.precision) :
    merge cfg ordS ordO s t = .ok (s, .error .IncompatiblePrecision) := by
  rw [merge, if_pos h]; rfl

/-- The first step of `count`. -/
def flush (cfg : Cfg) (ord : IterOrder) (s : Plus I) : R (Plus I) :=
  match s.registers with
  | none => mergeSparse cfg ord s
  | some _ => pure s

/-- The flush at the start of `count`. -/
theorem flush_ok (cfg : Cfg) (hcfg : 32 ≤ cfg.usizeBits) (ord : IterOrder) {p : Nat}
    {s : Plus I} {S : Finset Nat} (h : Rep p s S) :
    ∃ s', flush cfg ord s = .ok s' ∧ Flushed p s' S ∧ s'.builder = s.builder := by
  obtain ⟨hb, ⟨L, hs, hl, ht⟩ | ⟨r, hd⟩⟩ := h
  · rw [flush, hs.regs]
    simp only
    exact mergeSparse_ok cfg hcfg ord hb hs hl (by omega)
  · rw [flush, hd.regs]
    exact ⟨s, rfl, ⟨hb, Or.inr ⟨r, hd⟩⟩, rfl⟩

end Plus
end HLL
