import Verif.Proofs.HighRank
import Verif.Props.Usable

/-!
# Sparse sketches from arbitrary payloads: exactly which can be used

C36 for `HyperLogLogPlus` without registers; `Props/Usable.lean` has the rest.
-/

namespace HLL
open Spec Serde
variable {I : Type} {cfg : Cfg} {ln : F64 → F64} {c : Serde.Codec I} {ords : Nat → IterOrder × IterOrder}

theorem dePlus_nodup {v : Value} {s : Plus I} (h : Serde.dePlus cfg c v = some s) : s.tmpset.Nodup := by
  unfold Serde.dePlus at h
  simp only [Option.bind_eq_bind, Option.bind_eq_some_iff] at h
  obtain ⟨fs, -, h⟩ := h
  split at h
  · simp only [Option.bind_eq_some_iff, Option.pure_def, Option.some.injEq] at h
    obtain ⟨_, _, _, _, _, _, _, h1, _, _, cs, h2, _, _, _, _, _, _, _, h3, rs, h4, _, _, _, _, rfl⟩ := h
    exact (Plus.foldl_hashSetInsert _ [] List.nodup_nil).1
  · cases h

theorem withCodes_stored {L : List Nat} {T X Y : Finset Nat}
    (h : ∀ c, c ∈ T ∪ X → c ∉ L → c ∈ T ∪ Y) (hY : Y ⊆ X) : withCodes L (T ∪ X) = withCodes L (T ∪ Y) := by
  unfold withCodes
  congr 2
  apply congrArg
  ext k
  simp only [Finset.mem_sdiff, List.mem_toFinset]
  constructor
  · exact fun hk => ⟨h k hk.1 hk.2, hk.2⟩
  · exact fun hk => ⟨Finset.union_subset_union_right hY hk.1, hk.2⟩

theorem readsAs_words {bs L : List Nat} (h : ReadsAs bs L) : ∃ L0 : List U32, L = L0.map BitVec.toNat := by
  obtain ⟨_, _, _, _, h4⟩ := h
  refine ⟨L.map (BitVec.ofNat 32), ?_⟩
  rw [List.map_map]
  conv_lhs => rw [← List.map_id L]
  apply List.map_congr_left
  intro a ha
  exact (Nat.mod_eq_of_lt (h4 a ha)).symm

/-- Sufficient, for sparse `HyperLogLogPlus` with overflow checks and any builder: the conditions of
`UsableSparse`, and ranks that are not 64, where those above 64 do not belong to the last register unless
`m` is the number of registers. -/
theorem C36_plus_sparse_safe (hb : 39 ≤ cfg.usizeBits) (ho : cfg.overflowChecks = true) {v : Value}
    {s : Plus I} (hs : Serde.dePlus cfg c v = some s) (hr : s.registers = none)
    (hp1 : 4 ≤ s.precision) (hp2 : s.precision ≤ 18)
    (hlen : s.sparse.buf.length < 2 ^ (cfg.usizeBits - 1))
    (hL : ∀ L, ReadsAs (s.sparse.buf.map BitVec.toNat) L → ∀ k ∈ L, RankAllowed s.counts.1 s.precision k)
    (hT : ∀ k ∈ s.tmpset, RankAllowed s.counts.1 s.precision k.toNat) :
    UsableSparse s → ∀ ops, ∃ st' os, run (Plus.api cfg ln c) ords 0 [s] ops = .ok (st', os) := by
  have ht := dePlus_typed hs
  have hn := dePlus_nodup hs
  have hsize : ∀ L : List U32, ReadsAs (s.sparse.buf.map BitVec.toNat) (L.map BitVec.toNat) →
      L.length ≤ s.sparse.buf.length + (L.map BitVec.toNat).toFinset.card := by
    intro L h
    have := DifIntVec.readsAs_length h
    simp only [List.length_map] at this
    omega
  have hsort : ∀ L : List U32, ReadsAs (s.sparse.buf.map BitVec.toNat) (L.map BitVec.toNat) →
      L.Pairwise (· ≤ ·) := by
    intro L h
    have := DifIntVec.readsAs_sorted h
    rw [List.pairwise_map] at this
    exact this.imp fun h => BitVec.le_def.2 h
  rintro ⟨m1, m2, L', hreads, hroom⟩ ops
  obtain ⟨L, rfl⟩ := readsAs_words hreads
  let A : Nat → Nat → Prop := fun p k => (4 ≤ p ∧ GoodCode p k) ∨
    (p = s.precision ∧ (k ∈ L.map BitVec.toNat ∨ k ∈ Plus.tmpNat s))
  obtain ⟨st', os, h1, _⟩ := (Plus.skin_keeps
      (Q := fun p => p = s.precision ∧ s.counts.1 = 2 ^ s.precision) (A := A) hb ho hlen (by
      have hq : ∀ k, RankAllowed s.counts.1 s.precision k →
          Plus.RankQ (fun p => p = s.precision ∧ s.counts.1 = 2 ^ s.precision) s.precision k :=
        fun k h h1 => (h h1).imp id fun h => ⟨h.1, h.2.imp id fun h => ⟨rfl, h⟩⟩
      rintro p k (⟨h1, h2⟩ | ⟨rfl, h2 | h2⟩)
      · exact Plus.RankKept.rankQ (Plus.rankKept (Plus.goodCode_rankFits h1 h2))
      · exact hq _ (hL _ hreads _ h2)
      · rw [Plus.tmpNat, List.mem_toFinset, List.mem_map] at h2
        obtain ⟨a, ha, rfl⟩ := h2
        exact hq _ (hT a ha)) (fun p k h1 h2 => Or.inl ⟨h1, h2⟩) ln c).run ords ops 0 (st := [s]) (by
    classical
    intro t hm'
    rw [List.mem_singleton] at hm'
    subst hm'
    refine Or.inl ⟨L, hr, hp1, hp2, ht, (DifIntVec.toList_iff cfg ho t.sparse L).2 hreads, hsort L hreads, hn,
      ?_, m1, m2, fun h => h.2.le, ?_, hsize L hreads⟩
    · rintro k (hk | hk)
      · exact Or.inr ⟨rfl, Or.inl (List.mem_map.2 ⟨k, hk, rfl⟩)⟩
      · exact Or.inr ⟨rfl, Or.inr (by
          rw [Plus.tmpNat, List.mem_toFinset]; exact List.mem_map.2 ⟨k, hk, rfl⟩)⟩
    · intro X hX
      rw [withCodes_stored (Y := X.filter (GoodCode t.precision)) _ (Finset.filter_subset _ _)]
      · exact hroom _ (fun k hk => (Finset.mem_filter.1 hk).2)
      · intro k hk hkL
        rw [Finset.mem_union] at hk ⊢
        rcases hk with hk | hk
        · exact Or.inl hk
        · rcases hX k hk with ⟨_, h⟩ | ⟨_, h | h⟩
          · exact Or.inr (Finset.mem_filter.2 ⟨hk, h⟩)
          · exact absurd h hkL
          · exact Or.inl h)
  exact ⟨st', os, h1⟩

/-- **C36, exactly, for sparse `HyperLogLogPlus` with overflow checks.** Let `s` be deserialised from any
payload without registers, with a precision that `new` accepts, fewer than half the address space of
bytes, and ranks in its codes that fit in a register.  Suppose that the builder in it can produce all
hashes.  Then no program using it panics if and only if the conditions of `UsableSparse` hold. -/
theorem C36_plus_sparse_exact (hb : 39 ≤ cfg.usizeBits) (ho : cfg.overflowChecks = true) {v : Value}
    {s : Plus I} (hs : Serde.dePlus cfg c v = some s) (hr : s.registers = none)
    (hp1 : 4 ≤ s.precision) (hp2 : s.precision ≤ 18)
    (hlen : s.sparse.buf.length < 2 ^ (cfg.usizeBits - 1))
    (hL : ∀ L, ReadsAs (s.sparse.buf.map BitVec.toNat) L → ∀ k ∈ L, RankFits s.precision k)
    (hT : ∀ k ∈ s.tmpset, RankFits s.precision k.toNat) (hh : Function.Surjective s.builder) :
    (∀ ops, ∃ st' os, run (Plus.api cfg ln c) ords 0 [s] ops = .ok (st', os)) ↔ UsableSparse s := by
  have ht := dePlus_typed hs
  have hn := dePlus_nodup hs
  have hsize : ∀ L : List U32, ReadsAs (s.sparse.buf.map BitVec.toNat) (L.map BitVec.toNat) →
      L.length ≤ s.sparse.buf.length + (L.map BitVec.toNat).toFinset.card := by
    intro L h
    have := DifIntVec.readsAs_length h
    simp only [List.length_map] at this
    omega
  have hsort : ∀ L : List U32, ReadsAs (s.sparse.buf.map BitVec.toNat) (L.map BitVec.toNat) →
      L.Pairwise (· ≤ ·) := by
    intro L h
    have := DifIntVec.readsAs_sorted h
    rw [List.pairwise_map] at this
    exact this.imp fun h => BitVec.le_def.2 h
  constructor
  · intro h
    have hnev : Never (Plus.api cfg ln c) ords [s] :=
      ⟨0, fun ops => by obtain ⟨a, b, h⟩ := h ops; exact ⟨_, h⟩⟩
    obtain ⟨L, hread⟩ := Plus.never_ends hnev (i := 0) rfl hr
    have hreads := (DifIntVec.toList_iff cfg ho s.sparse L).1 hread
    have hraw : Plus.SRaw cfg s.sparse.buf.length s L := ⟨hr, hread, hsort L hreads, hn, hsize L hreads⟩
    obtain ⟨m1, m2⟩ := Plus.never_m hb ho hlen hnev ht hraw hp1 hp2 hh (by
      rintro k (hk | hk)
      · exact hL _ hreads _ (List.mem_map.2 ⟨k, hk, rfl⟩)
      · exact hT k hk)
    exact ⟨m1, m2, _, hreads, fun X hX hfit =>
      Plus.never_room hb ho hlen hnev (i := 0) rfl hraw hp1 hp2 hh X hX hfit⟩
  · intro h
    exact C36_plus_sparse_safe hb ho hs hr hp1 hp2 hlen (fun L h k hk => Plus.rankAllowed (Plus.rankKept (hL L h k hk)))
      (fun k hk => Plus.rankAllowed (Plus.rankKept (hT k hk))) h

/-- **C36, exactly, for sparse `HyperLogLogPlus` without overflow checks.** Nothing is assumed about the
bytes, the codes or the size of the payload. -/
theorem C36_plus_sparse_exact_wrapping (hb : 36 < cfg.usizeBits) (ho : cfg.overflowChecks = false)
    {v : Value} {s : Plus I} (hs : Serde.dePlus cfg c v = some s) (hr : s.registers = none)
    (hp1 : 4 ≤ s.precision) (hp2 : s.precision ≤ 18) (hh : Function.Surjective s.builder) :
    (∀ ops, ∃ st' os, run (Plus.api cfg ln c) ords 0 [s] ops = .ok (st', os)) ↔
      UsableWrappingSparse s := by
  have ht := dePlus_typed hs
  constructor
  · intro h
    have hnev : Never (Plus.api cfg ln c) ords [s] :=
      ⟨0, fun ops => by obtain ⟨a, b, h⟩ := h ops; exact ⟨_, h⟩⟩
    obtain ⟨L, hread⟩ := Plus.never_ends hnev (i := 0) rfl hr
    exact ⟨Plus.never_mW hb ho hnev ht hr hp1 hp2 hh, DifIntVec.toList_ends hread⟩
  · rintro ⟨h1, h2⟩ ops
    obtain ⟨st', os, h3, _⟩ := (Plus.wkin_keeps hb ho ln c).run ords ops 0 (st := [s]) (by
      intro t hm'
      rw [List.mem_singleton] at hm'
      subst hm'
      exact Or.inl ⟨hr, hp1, hp2, ht, h2, h1⟩)
    exact ⟨st', os, h3⟩

/-- Rank 64 is not harmless: if a code in the sparse list has it, and the builder can produce all hashes,
then some program panics in a build with overflow checks. -/
theorem C36_plus_rank_64 (hb : 36 < cfg.usizeBits) (ho : cfg.overflowChecks = true) {s : Plus I}
    (hr : s.registers = none) (hp1 : 4 ≤ s.precision) (hp2 : s.precision ≤ 18)
    {L : List Nat} (hL : ReadsAs (s.sparse.buf.map BitVec.toNat) L) {k : Nat} (hk : k ∈ L)
    (hodd : k % 2 = 1) (h64 : k / 2 % 64 + (25 - s.precision) = 64) (hh : Function.Surjective s.builder) :
    ∃ ops e, run (Plus.api cfg ln c) ords 0 [s] ops = .error e := by
  by_contra hcon
  have hnev : Never (Plus.api cfg ln c) ords [s] := ⟨0, fun ops => by
    cases h : run (Plus.api cfg ln c) ords 0 [s] ops with
    | ok x => exact ⟨x, rfl⟩
    | error e => exact absurd ⟨ops, e, h⟩ hcon⟩
  have hsorted := DifIntVec.readsAs_sorted hL
  obtain ⟨L0, rfl⟩ := readsAs_words hL
  obtain ⟨k, hk', rfl⟩ := List.mem_map.1 hk
  rw [List.pairwise_map] at hsorted
  exact Plus.never_rank64 hb ho hnev hr ((DifIntVec.toList_iff cfg ho s.sparse L0).2 hL)
    (hsorted.imp fun h => BitVec.le_def.2 h) hp1 hp2 hh hk' hodd h64

/-- When the second number in `counts` is at least the third, the third condition of `UsableSparse` only
says that the bytes can be read. -/
theorem C36_plus_sparse_counts {s : Plus I} (h : s.counts.2.2 ≤ s.counts.2.1) :
    UsableSparse s ↔ 2 ^ s.precision ≤ s.counts.1 ∧ s.counts.1 ≤ 5 * ((2 ^ s.precision + 4) / 5) ∧
      ∃ L, ReadsAs (s.sparse.buf.map BitVec.toNat) L := by
  constructor
  · rintro ⟨h1, h2, L, h3, _⟩
    exact ⟨h1, h2, L, h3⟩
  · rintro ⟨h1, h2, L, h3⟩
    exact ⟨h1, h2, L, h3, fun X _ hfit => ((length_le_gapsSize _ 0).trans hfit).trans h⟩

/-- **C36, exactly, for sparse `HyperLogLogPlus` with overflow checks and any ranks in the list.** Here the
number `m` of the payload is at least the number of registers, and no code of the temporary set has rank
64.  Then no program panics if and only if the conditions of `UsableSparse` hold and the ranks are
allowed. -/
theorem C36_plus_sparse_ranks (hb : 39 ≤ cfg.usizeBits) (ho : cfg.overflowChecks = true) {v : Value}
    {s : Plus I} (hs : Serde.dePlus cfg c v = some s) (hr : s.registers = none)
    (hp1 : 4 ≤ s.precision) (hp2 : s.precision ≤ 18)
    (hlen : s.sparse.buf.length < 2 ^ (cfg.usizeBits - 1)) (hm : 2 ^ s.precision ≤ s.counts.1)
    (hT : ∀ k ∈ s.tmpset, k.toNat % 2 = 1 → k.toNat / 2 % 64 + (25 - s.precision) ≠ 64)
    (hh : Function.Surjective s.builder) :
    (∀ ops, ∃ st' os, run (Plus.api cfg ln c) ords 0 [s] ops = .ok (st', os)) ↔
      UsableSparse s ∧ (∀ L, ReadsAs (s.sparse.buf.map BitVec.toNat) L →
        ∀ k ∈ L, RankAllowed s.counts.1 s.precision k) ∧
        ∀ k ∈ s.tmpset, RankAllowed s.counts.1 s.precision k.toNat := by
  have ht := dePlus_typed hs
  have hn := dePlus_nodup hs
  constructor
  · intro h
    have hnev : Never (Plus.api cfg ln c) ords [s] :=
      ⟨0, fun ops => by obtain ⟨a, b, h⟩ := h ops; exact ⟨_, h⟩⟩
    obtain ⟨L, hread⟩ := Plus.never_ends hnev (i := 0) rfl hr
    have hreads := (DifIntVec.toList_iff cfg ho s.sparse L).1 hread
    have hsort : L.Pairwise (· ≤ ·) := by
      have := DifIntVec.readsAs_sorted hreads
      rw [List.pairwise_map] at this
      exact this.imp fun h => BitVec.le_def.2 h
    have hraw : Plus.SRaw cfg s.sparse.buf.length s L := ⟨hr, hread, hsort, hn, by
      have := DifIntVec.readsAs_length hreads
      simp only [List.length_map] at this
      omega⟩
    obtain ⟨-, m2, m3⟩ := Plus.never_high hb ho hlen hnev ht hraw hp1 hp2 hh
    have hall : ∀ k : U32, k ∈ L ∨ k ∈ s.tmpset → RankAllowed s.counts.1 s.precision k.toNat := by
      intro k hk hodd
      have h64 : k.toNat / 2 % 64 + (25 - s.precision) ≠ 64 := by
        rcases hk with hk | hk
        · exact Plus.never_rank64 (by omega) ho hnev hr hread hsort hp1 hp2 hh hk hodd
        · exact hT k hk hodd
      rcases Nat.lt_or_gt_of_ne h64 with h64 | h64
      · exact Or.inl h64
      · refine Or.inr ⟨h64, ?_⟩
        by_cases hlast : k.toNat / 2 ^ (32 - s.precision) + 1 < 2 ^ s.precision
        · exact Or.inl hlast
        · have hpow : 2 ^ 32 = 2 ^ s.precision * 2 ^ (32 - s.precision) := by rw [← pow_add]; congr 1; omega
          have hlt : k.toNat / 2 ^ (32 - s.precision) < 2 ^ s.precision := by
            rw [Nat.div_lt_iff_lt_mul (Nat.two_pow_pos _), ← hpow]
            exact k.isLt
          by_contra hcon
          have := m3 (by omega) k hk hodd (by omega)
          omega
    refine ⟨⟨hm, m2, _, hreads, fun X hX hfit =>
      Plus.never_room hb ho hlen hnev (i := 0) rfl hraw hp1 hp2 hh X hX hfit⟩, ?_, fun k hk => hall k (Or.inr hk)⟩
    intro L' hreads' k hk
    obtain ⟨L1, rfl⟩ := readsAs_words hreads'
    have he := (DifIntVec.toList_iff cfg ho s.sparse L1).2 hreads'
    rw [hread] at he
    cases he
    obtain ⟨a, ha, rfl⟩ := List.mem_map.1 hk
    exact hall a (Or.inl ha)
  · rintro ⟨h1, h2, h3⟩
    exact C36_plus_sparse_safe hb ho hs hr hp1 hp2 hlen h2 h3 h1

/-- The well-formed sparse sketches are among the usable ones. -/
theorem C36_plus_good_sparse {s : Plus I} (h : GoodPlus s) (hr : s.registers = none) :
    UsableSparse s ∧ UsableWrappingSparse s := by
  obtain ⟨hp1, hp2, hc, h⟩ := h
  rw [hr] at h
  obtain ⟨L, hL, -, -⟩ := goodSparse_iff.1 h.1
  have hread := hL.toList_eq Cfg.debug64
  have hpow : 2 ^ s.precision ≤ 2 ^ 18 := Nat.pow_le_pow_right (by norm_num) hp2
  refine ⟨(C36_plus_sparse_counts ?_).2 ⟨?_, ?_, _, (DifIntVec.toList_iff Cfg.debug64 rfl _ _).1 hread⟩, ?_,
    DifIntVec.toList_ends hread⟩
  · rw [hc]; simp only [capacity]; omega
  · rw [hc]
  · rw [hc]; simp only; omega
  · rw [hc]

/-- A sketch from a payload, in a build with overflow checks and `usize` of `W` bits: conditions that do
not depend on the other sketches of the program.  (For a single sketch `C36_plus_dense_exact` and
`C36_plus_sparse_exact` are sharper.) -/
def UsableTogether (W : Nat) (s : Plus I) : Prop :=
  4 ≤ s.precision ∧ s.precision ≤ 18 ∧
  match s.registers with
  | some r => s.counts.1 * s.counts.1 < 2 ^ W ∧ UsableDense s.precision r
  | none => 2 ^ s.precision ≤ s.counts.1 ∧ s.counts.1 ≤ 5 * ((2 ^ s.precision + 4) / 5) ∧
      s.counts.2.2 ≤ s.counts.2.1 ∧ s.sparse.buf.length < 2 ^ (W - 1) ∧
      (∃ L, ReadsAs (s.sparse.buf.map BitVec.toNat) L ∧ ∀ k ∈ L, RankKept s.precision k) ∧
      ∀ k ∈ s.tmpset, RankKept s.precision k.toNat

/-- **Several sketches from arbitrary payloads**, dense and sparse, with any builders: if each of them
satisfies the conditions of `UsableTogether`, no program that uses them together panics. -/
theorem C36_plus_together (hb : 39 ≤ cfg.usizeBits) (ho : cfg.overflowChecks = true) {st : List (Plus I)}
    (hst : ∀ s ∈ st, (∃ v, Serde.dePlus cfg c v = some s) ∧ UsableTogether cfg.usizeBits s)
    (ops : List (Op I)) (n : Nat) :
    ∃ st' os, run (Plus.api cfg ln c) ords n st ops = .ok (st', os) := by
  obtain ⟨st', os, h1, _⟩ := (Plus.skin_keeps (Q := fun _ => False) (A := RankKept) (B := 2 ^ (cfg.usizeBits - 1) - 1) hb ho
    (by have := Nat.two_pow_pos (cfg.usizeBits - 1); omega)
    (fun _ _ h => Plus.RankKept.rankQ h) (fun p k h1 h2 => Plus.rankKept (Plus.goodCode_rankFits h1 h2)) ln c).run ords ops n (st := st) (by
      intro s hs
      obtain ⟨⟨v, hv⟩, hp1, hp2, hu⟩ := hst s hs
      cases hr : s.registers with
      | some r =>
        rw [hr] at hu
        exact Or.inr ⟨r, hr, hp1, hp2, ⟨_, mulUsize_ok cfg hu.1⟩, dePlus_typed hv, hu.2, False.elim⟩
      | none =>
        rw [hr] at hu
        obtain ⟨m1, m2, hc, hlen, ⟨L', hreads, hL⟩, hT⟩ := hu
        obtain ⟨L, rfl⟩ := readsAs_words hreads
        refine Or.inl ⟨L, hr, hp1, hp2, dePlus_typed hv, (DifIntVec.toList_iff cfg ho s.sparse L).2 hreads, ?_,
          dePlus_nodup hv, ?_, m1, m2, False.elim, fun X _ hfit => ((length_le_gapsSize _ 0).trans hfit).trans hc, ?_⟩
        · have := DifIntVec.readsAs_sorted hreads
          rw [List.pairwise_map] at this
          exact this.imp fun h => BitVec.le_def.2 h
        · rintro k (hk | hk)
          · exact hL _ (List.mem_map.2 ⟨k, hk, rfl⟩)
          · exact hT k hk
        · have := DifIntVec.readsAs_length hreads
          simp only [List.length_map] at this
          omega)
  exact ⟨st', os, h1⟩

/-- The same without overflow checks, where the exact conditions for each sketch suffice. -/
theorem C36_plus_together_wrapping (hb : 36 < cfg.usizeBits) (ho : cfg.overflowChecks = false)
    {st : List (Plus I)} (hst : ∀ s ∈ st, (∃ v, Serde.dePlus cfg c v = some s) ∧
      4 ≤ s.precision ∧ s.precision ≤ 18 ∧
      match s.registers with
      | some r => UsableWrappingDense s.precision r
      | none => UsableWrappingSparse s) (ops : List (Op I)) (n : Nat) :
    ∃ st' os, run (Plus.api cfg ln c) ords n st ops = .ok (st', os) := by
  obtain ⟨st', os, h1, _⟩ := (Plus.wkin_keeps hb ho ln c).run ords ops n (st := st) (by
    intro s hs
    obtain ⟨⟨v, hv⟩, hp1, hp2, hu⟩ := hst s hs
    cases hr : s.registers with
    | some r =>
      rw [hr] at hu
      exact Or.inr ⟨r, hr, hp1, hp2, Plus.mulUsize_wrapping ho _ _, dePlus_typed hv, hu⟩
    | none =>
      rw [hr] at hu
      exact Or.inl ⟨hr, hp1, hp2, dePlus_typed hv, hu.2, hu.1⟩)
  exact ⟨st', os, h1⟩

/-- A 64-bit build without overflow checks. -/
def release64 : Cfg := { usizeBits := 64, overflowChecks := false, constLoop := true }

/-- A usable sparse sketch that is not well formed: a code is there twice, `m` is not a power of two, and
the other two numbers are not what `new` writes. -/
example : UsableSparse (⟨id, 4, (20, 3, 3), [6#32], ⟨7, 9, [2#8, 0#8]⟩, none⟩ : Plus U64) ∧
    ¬ GoodPlus (⟨id, 4, (20, 3, 3), [6#32], ⟨7, 9, [2#8, 0#8]⟩, none⟩ : Plus U64) := by
  refine ⟨(C36_plus_sparse_counts le_rfl).2 ⟨by norm_num, by norm_num, [2, 2], [[2], [0]], rfl, ?_,
    by decide +kernel, by decide⟩, fun h => ?_⟩
  · intro g hg
    simp only [List.mem_cons, List.not_mem_nil, or_false] at hg
    rcases hg with rfl | rfl
    · exact ⟨by decide, [], 2, rfl, by simp, by norm_num⟩
    · exact ⟨by decide, [], 0, rfl, by simp, by norm_num⟩
  · have := congrArg Prod.fst h.2.2.1
    norm_num at this

/-- A usable sketch with a code of rank 70. -/
example : UsableSparse (⟨id, 4, (16, 12, 12), [], ⟨99, 1, [99#8]⟩, none⟩ : Plus U64) ∧
    ReadsAs [99] [99] ∧ RankKept 4 99 ∧ ¬ RankFits 4 99 := by
  have h : ReadsAs [99] [99] := by
    refine ⟨[[99]], rfl, ?_, by decide +kernel, by decide⟩
    intro g hg
    rw [List.mem_singleton] at hg
    subst hg
    exact ⟨by decide, [], 99, rfl, by simp, by norm_num⟩
  refine ⟨(C36_plus_sparse_counts le_rfl).2 ⟨by norm_num, by norm_num, [99], h⟩, h, ?_, ?_⟩
  · intro _; norm_num
  · intro h; have := h (by norm_num); norm_num at this

/-- A code of rank 84 for the last of the 16 registers is allowed if `m` is 16 and not if it is 20; then
some program panics. -/
example : RankAllowed 16 4 0xFFFFFFFF ∧ ¬ RankAllowed 20 4 0xFFFFFFFF ∧
    ∀ c : Serde.Codec U64, c.RoundTrips id → ∃ v s, Serde.dePlus Cfg.debug64 c v = some s ∧
      s.counts.1 = 20 ∧ ¬ ∀ ops, ∃ st' os, run (Plus.api Cfg.debug64 ln c) ords 0 [s] ops = .ok (st', os) := by
  have hno : ¬ RankAllowed 20 4 0xFFFFFFFF := by
    intro h
    rcases h (by norm_num) with h | ⟨-, h | h⟩ <;> norm_num at h
  refine ⟨fun _ => Or.inr ⟨by norm_num, Or.inr (by norm_num)⟩, hno, fun c hc => ?_⟩
  have hd := Serde.dePlus_serPlus Cfg.debug64 IterOrder.id (s := (⟨id, 4, (20, 12, 12), [0xFFFFFFFF#32], ⟨0, 0, []⟩,
    none⟩ : Plus U64)) hc (by norm_num) (by norm_num [Cfg.debug64])
    (by norm_num [Cfg.debug64]) (by norm_num [Cfg.debug64]) (by norm_num [Cfg.debug64]) (by rintro r ⟨⟩)
  refine ⟨_, _, hd, rfl, ?_⟩
  rw [C36_plus_sparse_ranks (by norm_num [Cfg.debug64]) rfl hd rfl (by norm_num) (by norm_num)
    (by norm_num [Cfg.debug64]) (by norm_num) ?_ Function.surjective_id]
  · rintro ⟨-, -, h⟩
    exact hno (h 0xFFFFFFFF#32 (show 0xFFFFFFFF#32 ∈ [0xFFFFFFFF#32] by simp))
  · intro k hk _
    have hk : k ∈ [0xFFFFFFFF#32] := hk
    rw [List.mem_singleton] at hk
    subst hk
    norm_num

/-- Only one byte differs, but the rank is 64, and some program with this one panics. -/
example (c : Serde.Codec U64) : ∃ ops e, run (Plus.api Cfg.debug64 ln c) ords 0
    [⟨id, 4, (16, 12, 12), [], ⟨87, 1, [87#8]⟩, none⟩] ops = .error e := by
  refine C36_plus_rank_64 (L := [87]) (k := 87) (by decide) rfl rfl (by norm_num) (by norm_num) ?_ (by simp)
    (by norm_num) (by norm_num) Function.surjective_id
  refine ⟨[[87]], rfl, ?_, by decide +kernel, by decide⟩
  intro g hg
  rw [List.mem_singleton] at hg
  subst hg
  exact ⟨by decide, [], 87, rfl, by simp, by norm_num⟩

/-- This one and a dense sketch with more words than needed can be used together. -/
example : UsableTogether 64 (⟨id, 4, (20, 3, 3), [6#32], ⟨7, 9, [2#8, 0#8]⟩, none⟩ : Plus U64) ∧
    UsableTogether 64 (⟨id, 4, (16, 0, 0), [], ⟨0, 0, []⟩, some ⟨[0x41#32, 0, 0, 0, 0, 7], 3, 1000⟩⟩ : Plus U64) := by
  refine ⟨⟨by norm_num, by norm_num, by norm_num, by norm_num, by norm_num, by norm_num,
    ⟨[2, 2], ⟨[[2], [0]], rfl, ?_, by decide +kernel, by decide⟩, by simp [RankKept]⟩, by simp [RankKept]⟩,
    by norm_num, by norm_num, by norm_num, by norm_num, ?_, ?_⟩
  · intro g hg
    simp only [List.mem_cons, List.not_mem_nil, or_false] at hg
    rcases hg with rfl | rfl
    · exact ⟨by decide, [], 2, rfl, by simp, by norm_num⟩
    · exact ⟨by decide, [], 0, rfl, by simp, by norm_num⟩
  · show ((List.range 16).map (packed 6 [0x41, 0, 0, 0, 0, 7])).count 0 ≤ 1000
    decide +kernel
  · intro j hj hj2
    rw [lt_min_iff] at hj
    exact absurd hj.1 (by show ¬ j < 3; simp only at hj2; omega)

/-- A sparse sketch whose deserialisation succeeds and on which some program panics with overflow checks:
it says that there are no codes, but room for them.  Without overflow checks no program does. -/
example {c : Serde.Codec U64} (hc : c.RoundTrips id) :
    ∃ v s, Serde.dePlus Cfg.debug64 c v = some s ∧
      (¬ ∀ ops, ∃ st' os, run (Plus.api Cfg.debug64 ln c) ords 0 [s] ops = .ok (st', os)) ∧
      ∃ v' s', Serde.dePlus release64 c v' = some s' ∧
      ∀ ops, ∃ st' os, run (Plus.api release64 ln c) ords 0 [s'] ops = .ok (st', os) := by
  have hd := Serde.dePlus_serPlus Cfg.debug64 IterOrder.id (s := (⟨id, 4, (16, 0, 1), [], ⟨0, 0, []⟩,
    none⟩ : Plus U64)) hc (by norm_num) (by norm_num [Cfg.debug64])
    (by norm_num [Cfg.debug64]) (by norm_num [Cfg.debug64]) (by norm_num [Cfg.debug64])
    (by rintro r ⟨⟩)
  have hd' := Serde.dePlus_serPlus release64 IterOrder.id (s := (⟨id, 4, (16, 0, 1), [], ⟨0, 0, []⟩,
    none⟩ : Plus U64)) hc (by norm_num) (by norm_num [release64])
    (by norm_num [release64]) (by norm_num [release64]) (by norm_num [release64])
    (by rintro r ⟨⟩)
  have hnil : ∀ L, ReadsAs [] L → L = [] := fun L h => List.length_eq_zero_iff.1 (by
    have := DifIntVec.readsAs_length h
    simpa using this)
  refine ⟨_, _, hd, ?_, _, _, hd', ?_⟩
  · rw [C36_plus_sparse_exact (by norm_num [Cfg.debug64]) rfl hd rfl (by norm_num) (by norm_num)
      (by norm_num [Cfg.debug64]) (by
        intro L h k hk
        rw [hnil L h] at hk
        cases hk) (by simp [IterOrder.id]) Function.surjective_id]
    rintro ⟨_, _, L, h, h2⟩
    obtain rfl := hnil L h
    have h3 := h2 {2} (by simp [GoodCode])
    simp [withCodes, IterOrder.id, gapsSize, varLen] at h3
  · exact (C36_plus_sparse_exact_wrapping (by norm_num [release64]) rfl hd' rfl (by norm_num)
      (by norm_num) Function.surjective_id).2 ⟨rfl, by simp⟩

/-- A list cut off in the middle of a number cannot be used in either build. -/
example : ¬ UsableSparse (⟨id, 4, (16, 2, 2), [], ⟨1, 200, [200#8]⟩, none⟩ : Plus U64) ∧
    ¬ UsableWrappingSparse (⟨id, 4, (16, 2, 2), [], ⟨1, 200, [200#8]⟩, none⟩ : Plus U64) := by
  constructor
  · rintro ⟨_, _, L, h, _⟩
    obtain ⟨L, rfl⟩ := readsAs_words h
    have h1 := (DifIntVec.toList_iff Cfg.debug64 rfl ⟨1, 200, [200#8]⟩ L).2 h
    have h2 := DifIntVec.toList_ends h1 200#8 rfl
    revert h2
    decide
  · rintro ⟨_, h⟩
    have := h 200#8 rfl
    revert this
    decide

end HLL
