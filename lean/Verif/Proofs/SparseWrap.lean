import Verif.Proofs.SparseNeed

/-! # Sparse `HyperLogLogPlus` in a build without overflow checks -/

namespace HLL
open Spec Registers

/-- The last byte, if any, ends a number. -/
def EndsOk (v : List U8) : Prop := ∀ b ∈ v.getLast?, b.toNat < 128

theorem endsOk_iff {v : List U8} : EndsOk v ↔ ∀ b, v[v.length - 1]? = some b → b.toNat < 128 := by
  unfold EndsOk
  rw [List.getLast?_eq_getElem?]
  rfl

theorem shl_wrapping {w : Nat} {cfg : Cfg} (ho : cfg.overflowChecks = false) (a : BitVec w) (k : Nat) :
    ∃ x, shl cfg a k = .ok x := by
  unfold shl shAmt
  split
  · exact ⟨_, rfl⟩
  · rw [if_neg (by simp [ho])]; exact ⟨_, rfl⟩

namespace VarIntVec

theorem decodeLoop_wrapping {cfg : Cfg} (ho : cfg.overflowChecks = false) {v : List U8} (hv : EndsOk v)
    (start : Nat) : ∀ (fuel i : Nat) (val : U32), start + i < v.length → v.length ≤ fuel + (start + i) →
    ∃ x j, decodeLoop cfg v start fuel i val = .ok (x, j) ∧ start + i < j ∧ j ≤ v.length
  | 0, i, val, h1, h2 => by omega
  | fuel + 1, i, val, h1, h2 => by
    rw [decodeLoop, index, List.getElem?_eq_getElem h1]
    simp only [ok_bind]
    by_cases hb : 128 ≤ v[start + i].toNat
    · rw [if_pos ((msb_iff _).2 hb)]
      obtain ⟨y, hy⟩ := shl_wrapping ho (BitVec.setWidth 32 v[start + i] &&& 127#32) (i * 7)
      rw [hy, ok_bind]
      have hne : start + (i + 1) < v.length := by
        by_contra hcon
        have := endsOk_iff.1 hv v[start + i] (by
          rw [show v.length - 1 = start + i by omega]; exact List.getElem?_eq_getElem h1)
        omega
      obtain ⟨x, j, h3, h4, h5⟩ := decodeLoop_wrapping ho hv start fuel (i + 1) _ hne (by omega)
      exact ⟨x, j, h3, by omega, h5⟩
    · rw [if_neg (by rw [msb_iff]; exact hb)]
      obtain ⟨y, hy⟩ := shl_wrapping ho (BitVec.setWidth 32 v[start + i]) (i * 7)
      rw [hy, ok_bind]
      exact ⟨_, _, rfl, by omega, by omega⟩

/-- What was read ends with a byte below 128. -/
theorem decodeLoop_ends {cfg : Cfg} {v : List U8} (start : Nat) : ∀ (fuel i : Nat) (val : U32) (x : U32) (j : Nat),
    decodeLoop cfg v start fuel i val = .ok (x, j) →
    start + i < j ∧ ∃ b, v[j - 1]? = some b ∧ b.toNat < 128
  | 0, i, val, x, j, h => by rw [decodeLoop] at h; cases h
  | fuel + 1, i, val, x, j, h => by
    rw [decodeLoop, bind_eq_ok] at h
    obtain ⟨b, h1, h⟩ := h
    have hb : v[start + i]? = some b := by
      unfold index at h1
      cases hv : v[start + i]? with
      | none => rw [hv] at h1; cases h1
      | some b' => rw [hv] at h1; cases h1; rfl
    split at h
    · rw [bind_eq_ok] at h
      obtain ⟨y, -, h⟩ := h
      obtain ⟨h2, h3⟩ := decodeLoop_ends start fuel (i + 1) _ x j h
      exact ⟨by omega, h3⟩
    · rename_i hlt
      rw [msb_iff] at hlt
      rw [bind_eq_ok] at h
      obtain ⟨y, -, h⟩ := h
      cases h
      exact ⟨by omega, b, by rw [Nat.add_sub_cancel]; exact hb, by omega⟩

theorem endsOk_push (v : List U8) (x : U32) : EndsOk (VarIntVec.push v x) := by
  have h := decode_spec Cfg.debug64 v [] x
  rw [decode] at h
  obtain ⟨h1, b, h2, h3⟩ := decodeLoop_ends _ _ _ _ _ _ h
  rw [endsOk_iff]
  intro b' hb'
  rw [push, List.length_append] at hb'
  rw [List.append_nil] at h2
  rw [hb'] at h2
  cases h2
  exact h3

end VarIntVec

namespace DifIntVec

theorem collect_wrapping {cfg : Cfg} (ho : cfg.overflowChecks = false) {d : DifIntVec} (hv : EndsOk d.buf) :
    ∀ (fuel : Nat) (it : Iter), ∃ L, collect cfg d fuel it = .ok L
  | 0, it => ⟨[], rfl⟩
  | fuel + 1, it => by
    by_cases hle : d.buf.length ≤ it.index
    · exact ⟨[], by rw [collect, next, if_pos hle]; rfl⟩
    · obtain ⟨x, j, h1, _, _⟩ := VarIntVec.decodeLoop_wrapping ho hv it.index (d.buf.length + 1) 0 0#32
        (by omega) (by omega)
      obtain ⟨L, hL⟩ := collect_wrapping ho hv fuel ⟨j, it.last + x⟩
      refine ⟨(it.last + x) :: L, ?_⟩
      rw [collect, next, if_neg hle, VarIntVec.decode, h1]
      simp only [ok_bind]
      rw [addU32, if_neg (by simp [ho])]
      simp only [ok_bind, pure_eq_ok]
      rw [hL]
      rfl

theorem toList_wrapping {cfg : Cfg} (ho : cfg.overflowChecks = false) {d : DifIntVec} (hv : EndsOk d.buf) :
    ∃ L, d.toList cfg = .ok L := collect_wrapping ho hv _ _

theorem collect_ends {cfg : Cfg} {d : DifIntVec} : ∀ (fuel : Nat) (it : Iter) (L : List U32),
    it.index < d.buf.length → d.buf.length < fuel + it.index → collect cfg d fuel it = .ok L → EndsOk d.buf
  | 0, it, L, h1, h2, _ => by omega
  | fuel + 1, it, L, h1, h2, h => by
    rw [collect, next, if_neg (by omega), bind_eq_ok] at h
    obtain ⟨o, h3, h⟩ := h
    rw [bind_eq_ok] at h3
    obtain ⟨⟨x, j⟩, h3, h4⟩ := h3
    simp only at h4
    rw [bind_eq_ok] at h4
    obtain ⟨y, -, h4⟩ := h4
    cases h4
    simp only at h
    rw [bind_eq_ok] at h
    obtain ⟨L', h, -⟩ := h
    obtain ⟨e1, b, e2, e3⟩ := VarIntVec.decodeLoop_ends _ _ _ _ _ _ h3
    have hj : j - 1 < d.buf.length := (List.getElem?_eq_some_iff.1 e2).1
    by_cases hlast : j = d.buf.length
    · rw [endsOk_iff]
      intro b' hb'
      rw [← hlast, e2] at hb'
      cases hb'
      exact e3
    · exact collect_ends fuel ⟨j, y⟩ L' (by simp only; omega) (by simp only; omega) h

theorem toList_ends {cfg : Cfg} {d : DifIntVec} {L : List U32} (h : d.toList cfg = .ok L) : EndsOk d.buf := by
  by_cases hne : d.buf = []
  · rw [hne]; intro b hb; cases hb
  · have := List.length_pos_iff.2 hne
    exact collect_ends _ _ L (by simp only; omega) (by simp only; omega) h

theorem push_wrapping {cfg : Cfg} (ho : cfg.overflowChecks = false) (d : DifIntVec) (v : U32) :
    ∃ d', push cfg d v = .ok d' ∧ EndsOk d'.buf ∧ d'.count < 2 ^ cfg.usizeBits := by
  have hc : ∃ n, addUsize cfg d.count 1 = .ok n ∧ n < 2 ^ cfg.usizeBits := by
    unfold addUsize ck
    have h2 : (0 : Int) < 2 ^ cfg.usizeBits := by positivity
    split
    · rename_i h
      exact ⟨_, rfl, by have := h.2; zify; omega⟩
    · rw [if_neg (by simp [ho])]
      refine ⟨_, rfl, ?_⟩
      have := Int.emod_lt_of_pos ((d.count : Int) + ((1 : Nat) : Int)) h2
      have := Int.emod_nonneg ((d.count : Int) + ((1 : Nat) : Int)) h2.ne'
      zify
      omega
  obtain ⟨n, h1, h2⟩ := hc
  refine ⟨⟨n, v, d.buf.push (v - d.last)⟩, ?_, VarIntVec.endsOk_push _ _, h2⟩
  rw [push, subU32, if_neg (by simp [ho]), ok_bind, h1]
  rfl

end DifIntVec

namespace Plus
variable {I : Type} {cfg : Cfg} {ln : F64 → F64} {c : Serde.Codec I} {ords : Nat → IterOrder × IterOrder}

theorem mergeLoop_wrapping (ho : cfg.overflowChecks = false) : ∀ (as bs : List U32) (out : DifIntVec),
    EndsOk out.buf → out.count < 2 ^ cfg.usizeBits →
    ∃ d, mergeLoop cfg as bs out = .ok d ∧ EndsOk d.buf ∧ d.count < 2 ^ cfg.usizeBits := by
  intro as bs out
  induction as, bs, out using mergeLoop.induct with
  | case1 out => intro h1 h2; exact ⟨out, by rw [mergeLoop]; rfl, h1, h2⟩
  | case2 b bs out ih =>
    intro _ _
    obtain ⟨d, h1, h2, h3⟩ := DifIntVec.push_wrapping ho out b
    rw [mergeLoop, h1, ok_bind]
    exact ih d h2 h3
  | case3 a as out ih =>
    intro _ _
    obtain ⟨d, h1, h2, h3⟩ := DifIntVec.push_wrapping ho out a
    rw [mergeLoop, h1, ok_bind]
    exact ih d h2 h3
  | case4 as a bs out ih =>
    intro _ _
    obtain ⟨d, h1, h2, h3⟩ := DifIntVec.push_wrapping ho out a
    rw [mergeLoop, if_pos rfl, h1, ok_bind]
    exact ih d h2 h3
  | case5 a as b bs out hne hgt ih =>
    intro _ _
    obtain ⟨d, h1, h2, h3⟩ := DifIntVec.push_wrapping ho out b
    rw [mergeLoop, if_neg hne, if_pos hgt, h1, ok_bind]
    exact ih d h2 h3
  | case6 a as b bs out hne hgt ih =>
    intro _ _
    obtain ⟨d, h1, h2, h3⟩ := DifIntVec.push_wrapping ho out a
    rw [mergeLoop, if_neg hne, if_neg hgt, h1, ok_bind]
    exact ih d h2 h3

theorem setCodes_wrapping (ho : cfg.overflowChecks = false) {p : Nat}
    (hp1 : 4 ≤ p) (hp2 : p ≤ 18) : ∀ (L : List U32) (r : Registers), 2 ^ p ≤ 5 * r.buf.length →
    r.zeros < 2 ^ cfg.usizeBits →
    ∃ r', Plus.setCodes cfg p L r = .ok r' ∧ r'.buf.length = r.buf.length ∧
      r'.zeros < 2 ^ cfg.usizeBits ∧ r'.count = r.count
  | [], r, hr, hz => ⟨r, rfl, rfl, hz, rfl⟩
  | c :: cs, r, hr, hz => by
    obtain ⟨z, i, hz1, hi, _⟩ := decodeHash_any cfg hp1 hp2 c
    have g := setGreater_wrapping (S := 6) (Or.inr rfl) cfg ho (r := r) (i := i) z
    rw [if_pos (by rw [show perWord 6 = 5 from rfl]; omega)] at g
    obtain ⟨r1, e1, e2, e3, e4⟩ := g
    obtain ⟨r', h5, h6, h7, h8⟩ := setCodes_wrapping ho hp1 hp2 cs r1 (by omega) (e4 hz)
    refine ⟨r', ?_, by omega, h7, by omega⟩
    rw [Plus.setCodes, hz1, ok_bind]
    simp only
    rw [show SIZE = 6 from rfl, e1, ok_bind, h5]

theorem mulUsize_wrapping (ho : cfg.overflowChecks = false) (a b : Nat) : ∃ q, mulUsize cfg a b = .ok q := by
  unfold mulUsize ck
  split
  · exact ⟨_, rfl⟩
  · rw [if_neg (by simp [ho])]; exact ⟨_, rfl⟩

theorem subUsize_wrapping (ho : cfg.overflowChecks = false) (a b : Nat) : ∃ q, subUsize cfg a b = .ok q := by
  unfold subUsize ck
  split
  · exact ⟨_, rfl⟩
  · rw [if_neg (by simp [ho])]; exact ⟨_, rfl⟩

/-- A sparse sketch that can be used without overflow checks. -/
structure WKin (cfg : Cfg) (s : Plus I) : Prop where
  regs : s.registers = none
  hp1 : 4 ≤ s.precision
  hp2 : s.precision ≤ 18
  typed : Typed cfg.usizeBits s
  ends : EndsOk s.sparse.buf
  m : (s.counts.1 + 4) / 5 = (2 ^ s.precision + 4) / 5

def WKin2 (cfg : Cfg) (s : Plus I) : Prop := WKin cfg s ∨ ∃ r, Dense cfg UsableWrappingDense s r

theorem WKin.tmp {s : Plus I} (h : WKin cfg s) (T : List U32) : WKin cfg { s with tmpset := T } :=
  ⟨h.regs, h.hp1, h.hp2, ⟨h.typed.prec, h.typed.c1, h.typed.c2, h.typed.c3, h.typed.sparse, h.typed.regs⟩,
    h.ends, h.m⟩

theorem WKin.dense (hcfg : 36 < cfg.usizeBits) (ho : cfg.overflowChecks = false) {s : Plus I}
    (h : WKin cfg s) :
    ∃ s' r, sparseToNormal cfg s = .ok s' ∧ s'.precision = s.precision ∧
      Dense cfg UsableWrappingDense s' r := by
  have hp1 := h.hp1
  have hp2 := h.hp2
  have hm := h.m
  obtain ⟨hb1, hb2⟩ := pow_bounds cfg (by omega) hp2
  obtain ⟨r0, h1, h2⟩ := Registers.rep_withCount cfg (S := 6) (Or.inr rfl) (n := s.counts.1) (by omega)
  have hz : r0.zeros = s.counts.1 := by rw [h2.zeros_eq]; simp
  have hl : r0.buf.length = (s.counts.1 + 5 - 1) / 5 := h2.len_eq
  have hc : r0.count = s.counts.1 := h2.count_eq
  obtain ⟨L, hL⟩ := DifIntVec.toList_wrapping ho h.ends
  obtain ⟨r, h3, h4, h5, h6⟩ := setCodes_wrapping ho hp1 hp2 L r0 (by omega) (by omega)
  refine ⟨{ s with registers := some r, tmpset := [], sparse := s.sparse.clear }, r, ?_, rfl, rfl, hp1, hp2,
    mulUsize_wrapping ho _ _, ⟨h.typed.prec, h.typed.c1, h.typed.c2, h.typed.c3, ?_, ?_⟩, ?_⟩
  · rw [sparseToNormal, show SIZE = 6 from rfl, h1, ok_bind, hL, ok_bind, h3]
    rfl
  · simp only [DifIntVec.clear]; omega
  · intro r' hr'
    cases hr'
    omega
  · simp only
    exact ⟨by omega, by omega⟩

theorem WKin.flush (hcfg : 36 < cfg.usizeBits) (ho : cfg.overflowChecks = false) (ord : IterOrder) {s : Plus I}
    (h : WKin cfg s) : ∃ s', mergeSparse cfg ord s = .ok s' ∧ s'.precision = s.precision ∧ WKin2 cfg s' := by
  obtain ⟨L, hL⟩ := DifIntVec.toList_wrapping ho h.ends
  obtain ⟨d, h1, h2, h3⟩ := mergeLoop_wrapping ho (sortCodes (ord.apply s.tmpset)) L DifIntVec.new
    (by intro b hb; cases hb) (Nat.two_pow_pos _)
  have hK : WKin cfg { s with sparse := d, tmpset := [] } :=
    ⟨h.regs, h.hp1, h.hp2, ⟨h.typed.prec, h.typed.c1, h.typed.c2, h.typed.c3, h3, h.typed.regs⟩, h2, h.m⟩
  have hun : mergeSparse cfg ord s = if d.len > s.counts.2.2 then
      sparseToNormal cfg { s with sparse := d, tmpset := [] }
      else .ok { s with sparse := d, tmpset := [] } := by
    rw [mergeSparse, hL]
    simp only [ok_bind, h1]
    rfl
  rw [hun]
  split
  · obtain ⟨s', r, h4, h5, h6⟩ := hK.dense hcfg ho
    exact ⟨s', h4, h5, Or.inr ⟨r, h6⟩⟩
  · exact ⟨_, rfl, rfl, Or.inl hK⟩

theorem WKin.maybe (hcfg : 36 < cfg.usizeBits) (ho : cfg.overflowChecks = false) (ord : IterOrder) {s : Plus I}
    (h : WKin cfg s) : ∃ s', maybeMergeSparse cfg ord s = .ok s' ∧ WKin2 cfg s' := by
  obtain ⟨q, hq⟩ := mulUsize_wrapping ho s.tmpset.length 100
  rw [maybeMergeSparse, hq, ok_bind]
  split
  · obtain ⟨s', h1, _, h2⟩ := h.flush hcfg ho ord
    exact ⟨s', h1, h2⟩
  · exact ⟨s, rfl, Or.inl h⟩

theorem wkin_new (hcfg : 36 < cfg.usizeBits) {s : Plus I} {p : Nat} (h : Flushed p s ∅) : WKin2 cfg s := by
  have ht := (h.rep.safe cfg (by omega)).typed (by omega)
  obtain ⟨hb, ⟨L, h1, h2, h3⟩ | ⟨r, h1⟩⟩ := h
  swap
  · exact absurd (by simp [fitsSparse, Spec.codes, encSize, gapsSize]) h1.big
  have hp := hb.prec
  subst hp
  refine Or.inl ⟨h1.regs, hb.hp1, hb.hp2, ht, DifIntVec.toList_ends (h1.enc.toList_eq cfg), ?_⟩
  rw [hb.counts]

theorem WKin2.insert (hcfg : 36 < cfg.usizeBits) (ho : cfg.overflowChecks = false) (ord : IterOrder)
    {s : Plus I} (h : WKin2 cfg s) (x : U64) :
    ∃ s', insertHash cfg ord s x = .ok s' ∧ WKin2 cfg s' := by
  rcases h with h | ⟨r, h⟩
  · obtain ⟨c, hc, hcv⟩ := encodeHash_ok cfg h.hp1 h.hp2 x
    rw [insertHash_none cfg ord x h.regs, hc, ok_bind]
    exact (h.tmp _).maybe hcfg ho ord
  · obtain ⟨s', h1, h2⟩ := Kin.insert (by omega) (closed_wrapping ho) ord (Or.inr ⟨r, h⟩) x
    rcases h2 with ⟨h2, _⟩ | h2
    · obtain ⟨v, hv, he⟩ := insertHash_raw cfg (by omega) ord h.regs h.hp1 h.hp2 x
      rw [he, bind_eq_ok] at h1
      obtain ⟨r', -, h3⟩ := h1
      cases h3
      cases h2
    · exact ⟨s', h1, Or.inr h2⟩

theorem WKin2.merge (hcfg : 36 < cfg.usizeBits) (ho : cfg.overflowChecks = false)
    (ordS ordO : IterOrder) {s t : Plus I} (hs : WKin2 cfg s) (ht : WKin2 cfg t) :
    ∃ s' x, Plus.merge cfg ordS ordO s t = .ok (s', x) ∧ WKin2 cfg s' := by
  by_cases hp : s.precision = t.precision
  swap
  · exact ⟨s, _, merge_error cfg ordS ordO hp, hs⟩
  have hprec : ¬ (s.precision ≠ t.precision) := not_not.2 hp
  have hP := closed_wrapping (cfg := cfg) ho
  rcases ht with ht | ⟨rt, ht⟩
  · obtain ⟨Lt, hLt⟩ := DifIntVec.toList_wrapping ho ht.ends
    rcases hs with hs | ⟨r, hs⟩
    · obtain ⟨s', h1, h2⟩ := (hs.tmp (Lt.foldl hashSetInsert ((ordO.apply t.tmpset).foldl hashSetInsert
        s.tmpset))).maybe hcfg ho ordS
      refine ⟨s', .ok (), ?_, h2⟩
      rw [merge_none_none cfg ordS ordO hprec hs.regs ht.regs, hLt, ok_bind, h1]
      rfl
    · obtain ⟨hc, hz⟩ := hs.typed.regs r hs.regs
      obtain ⟨u1, u2⟩ := hs.usable
      rw [hp] at u1 u2
      obtain ⟨r1, h1, h2, h3, h4⟩ := setCodes_wrapping ho ht.hp1 ht.hp2 (ordO.apply t.tmpset) r u1 hz
      obtain ⟨r2, h5, h6, h7, h8⟩ := setCodes_wrapping ho ht.hp1 ht.hp2 Lt r1 (by omega) h3
      refine ⟨{ s with registers := some r2 }, .ok (), ?_,
        Or.inr ⟨r2, hs.setRegs ⟨by rw [hp]; omega, by rw [hp, h6, h2, h8, h4]; exact u2⟩ ⟨by omega, h7⟩⟩⟩
      rw [Plus.merge, if_neg hprec, ht.regs, hs.regs]
      simp only
      rw [h1, ok_bind, hLt, ok_bind, h5]
      rfl
  · have hd : ∃ s1 r1, toDense cfg ordS s = .ok s1 ∧ s1.precision = s.precision ∧
        Dense cfg UsableWrappingDense s1 r1 := by
      rcases hs with hs | ⟨r, hs⟩
      · obtain ⟨s1, h1, h2, h3⟩ := hs.flush hcfg ho ordS
        rw [toDense, hs.regs]
        simp only
        rw [h1, ok_bind]
        rcases h3 with h3 | ⟨r, h3⟩
        · rw [h3.regs]
          obtain ⟨s2, r2, h4, h5, h6⟩ := h3.dense hcfg ho
          exact ⟨s2, r2, h4, h5.trans h2, h6⟩
        · rw [h3.regs]
          exact ⟨s1, r, rfl, h2, h3⟩
      · exact ⟨s, r, by rw [toDense, hs.regs]; rfl, rfl, hs⟩
    obtain ⟨s1, r1, h1, h2, h3⟩ := hd
    obtain ⟨hc, hz⟩ := h3.typed.regs r1 h3.regs
    have hu := ht.usable
    rw [← hp, ← h2] at hu
    obtain ⟨r2, h4, h5, h6, h7⟩ := hP.merge _ r1 rt h3.usable hu hz
    refine ⟨{ s1 with registers := some r2 }, .ok (), ?_, Or.inr ⟨r2, h3.setRegs h5 ⟨by omega, h6⟩⟩⟩
    rw [merge_some cfg ordS ordO hprec ht.regs, h1, ok_bind, h3.regs]
    simp only [unwrap, ok_bind, show SIZE = 6 from rfl]
    rw [Registers.plus_mergeRegs, h4]
    rfl

theorem wkin_keeps (hcfg : 36 < cfg.usizeBits) (ho : cfg.overflowChecks = false)
    (ln : F64 → F64) (c : Serde.Codec I) : Keeps (Plus.api cfg ln c) (WKin2 cfg) where
  new p b := by
    by_cases hp : 4 ≤ p ∧ p ≤ 18
    · obtain ⟨s, h1, h2, _⟩ := new_ok cfg (by omega) hp.1 hp.2 b
      exact ⟨_, h1, fun s' hs => by cases hs; exact wkin_new hcfg h2⟩
    · exact ⟨_, new_error cfg (by omega) b, fun s' hs => by cases hs⟩
  insert o k s v h := by
    obtain ⟨s', h1, h2⟩ := h.insert hcfg ho o (s.builder v)
    exact ⟨s', by cases k <;> exact h1, h2⟩
  merge o o' s t hs ht := hs.merge hcfg ho o o' ht
  count o s h := by
    have key : ∀ (s : Plus I) r, Dense cfg UsableWrappingDense s r →
        ∃ x, countNormal cfg ln s.precision s.counts.1 r = .ok x := by
      intro s r h
      obtain ⟨q, hq⟩ := h.sq
      exact countNormal_of_mul cfg (by omega) ln h.hp1 h.hp2 hq r
    rcases h with h | ⟨r, h⟩
    · obtain ⟨s', h1, h2, h3⟩ := h.flush hcfg ho o
      rcases h3 with h3 | ⟨r, h3⟩
      · obtain ⟨q, hq⟩ := subUsize_wrapping ho s'.counts.2.1 s'.sparse.count
        refine ⟨s', Common.linearCount ln s'.counts.2.1 q, ?_, Or.inl h3⟩
        show Plus.count cfg ln o s = _
        unfold Plus.count
        simp only [h.regs, h1, ok_bind, h3.regs]
        rw [hq, ok_bind]
        rfl
      · obtain ⟨x, hx⟩ := key s' r h3
        refine ⟨s', x, ?_, Or.inr ⟨r, h3⟩⟩
        show Plus.count cfg ln o s = _
        unfold Plus.count
        simp only [h.regs, h1, ok_bind, h3.regs, hx]
        rfl
    · obtain ⟨x, hx⟩ := key s r h
      refine ⟨s, x, ?_, Or.inr ⟨r, h⟩⟩
      show Plus.count cfg ln o s = _
      unfold Plus.count
      simp only [h.regs, pure_eq_ok, ok_bind, hx]
  reload o s h := ⟨_, rfl, fun s' hs => by
    rcases h with h | ⟨r, h⟩
    · obtain ⟨b, t, rfl⟩ := h.typed.reload hs
      exact Or.inl ⟨h.regs, h.hp1, h.hp2, ⟨h.typed.prec, h.typed.c1, h.typed.c2, h.typed.c3,
        h.typed.sparse, h.typed.regs⟩, h.ends, h.m⟩
    · obtain ⟨b, t, rfl⟩ := h.typed.reload hs
      exact Or.inr ⟨r, h.regs, h.hp1, h.hp2, h.sq, ⟨h.typed.prec, h.typed.c1, h.typed.c2, h.typed.c3,
        h.typed.sparse, h.typed.regs⟩, h.usable⟩⟩

/-! ## Necessity -/

theorem withCount_wrapping (ho : cfg.overflowChecks = false) (hcfg : 36 < cfg.usizeBits) {n : Nat}
    (hn : n < 2 ^ cfg.usizeBits) {r : Registers} (h : withCount cfg 6 n = .ok r) :
    r.count = n ∧ (r.buf.length = (n + 4) / 5 ∨ r.buf.length = 0 ∨
      2 ^ 20 < n ∧ 2 ^ 20 < r.buf.length) := by
  have hb3 : 2 ^ 37 ≤ 2 ^ cfg.usizeBits := Nat.pow_le_pow_right (by norm_num) hcfg
  by_cases hlt : n + 5 < 2 ^ cfg.usizeBits
  · rw [withCount, ceil_ok cfg (d := perWord 6) (by decide) hlt] at h
    cases h
    exact ⟨rfl, Or.inl (by simp [show perWord 6 = 5 from rfl])⟩
  · have ha : addUsize cfg n 5 = .ok (n + 5 - 2 ^ cfg.usizeBits) := by
      unfold addUsize ck
      rw [if_neg (by
        intro h
        have h2 := h.2
        zify at hlt
        push_cast at h2
        omega), if_neg (by simp [ho])]
      congr 1
      have hp : ((2 : Int) ^ cfg.usizeBits) = ((2 ^ cfg.usizeBits : Nat) : Int) := by push_cast; rfl
      rw [hp, ← Int.natCast_add, ← Int.natCast_emod, Int.toNat_natCast]
      generalize 2 ^ cfg.usizeBits = M at *
      rw [Nat.mod_eq_sub_mod (by omega), Nat.mod_eq_of_lt (by omega)]
    rw [withCount, ceil, show perWord 6 = 5 from rfl, ha] at h
    simp only [ok_bind] at h
    by_cases h0 : n + 5 = 2 ^ cfg.usizeBits
    · have hs : subUsize cfg (n + 5 - 2 ^ cfg.usizeBits) 1 = .ok (2 ^ cfg.usizeBits - 1) := by
        rw [h0, Nat.sub_self]
        unfold subUsize ck
        rw [if_neg (by omega), if_neg (by simp [ho])]
        congr 1
        have hp : ((2 : Int) ^ cfg.usizeBits) = ((2 ^ cfg.usizeBits : Nat) : Int) := by push_cast; rfl
        rw [hp]
        generalize 2 ^ cfg.usizeBits = M at *
        have : ((((0 : Nat) : Int) - ((1 : Nat) : Int)) % (M : Int)) = (M : Int) - 1 := by
          rw [show (((0 : Nat) : Int) - ((1 : Nat) : Int)) = ((M : Int) - 1) + (M : Int) * (-1) by ring,
            Int.add_mul_emod_self_left, Int.emod_eq_of_lt (by omega) (by omega)]
        rw [this]
        omega
      rw [hs] at h
      simp only [ok_bind, pure_eq_ok] at h
      cases h
      refine ⟨rfl, Or.inr (Or.inr ⟨by omega, ?_⟩)⟩
      simp only [List.length_replicate]
      omega
    · rw [subUsize_ok cfg (by omega) (by omega)] at h
      simp only [ok_bind, pure_eq_ok] at h
      cases h
      refine ⟨rfl, Or.inr (Or.inl ?_)⟩
      simp only [List.length_replicate]
      omega

/-- Setting registers keeps the number of words. -/
theorem setCodes_len (ho : cfg.overflowChecks = false) {p : Nat} (hp1 : 4 ≤ p) (hp2 : p ≤ 18) :
    ∀ (L : List U32) (r r' : Registers), setCodes cfg p L r = .ok r' →
    r'.count = r.count ∧ r'.buf.length = r.buf.length
  | [], r, r', h => by cases h; exact ⟨rfl, rfl⟩
  | k :: ks, r, r', h => by
    obtain ⟨z, j, hz1, hj, hz2, _⟩ := decodeHash_any cfg hp1 hp2 k
    rw [setCodes, hz1, ok_bind] at h
    simp only at h
    rw [bind_eq_ok] at h
    obtain ⟨r1, h1, h2⟩ := h
    rw [show SIZE = 6 from rfl] at h1
    have g := setGreater_wrapping (S := 6) (Or.inr rfl) cfg ho (r := r) (i := j) z
    split at g
    · obtain ⟨r2, e1, e2, e3, e4⟩ := g
      rw [h1] at e1
      cases e1
      obtain ⟨b1, b2⟩ := setCodes_len ho hp1 hp2 ks r1 r' h2
      exact ⟨by omega, by omega⟩
    · rw [h1] at g; cases g

theorem toDense_len (ho : cfg.overflowChecks = false) {ord : IterOrder} {s s1 : Plus I}
    (hr : s.registers = none) (hp1 : 4 ≤ s.precision) (hp2 : s.precision ≤ 18)
    (h : Plus.toDense cfg ord s = .ok s1) :
    ∃ r0 r, withCount cfg 6 s.counts.1 = .ok r0 ∧ r.count = r0.count ∧ r.buf.length = r0.buf.length ∧
      s1.registers = some r ∧ s1.precision = s.precision ∧ s1.builder = s.builder := by
  have key : ∀ d : DifIntVec, sparseToNormal cfg { s with sparse := d, tmpset := [] } = .ok s1 →
      ∃ r0 r, withCount cfg 6 s.counts.1 = .ok r0 ∧ r.count = r0.count ∧ r.buf.length = r0.buf.length ∧
      s1.registers = some r ∧ s1.precision = s.precision ∧ s1.builder = s.builder := by
    intro d hd
    obtain ⟨r0, L2, r, h1, h2, h3, rfl⟩ := sparseToNormal_inv hd
    obtain ⟨h4, h5⟩ := setCodes_len ho hp1 hp2 _ _ _ h3
    exact ⟨r0, r, h1, h4, h5, rfl, rfl, rfl⟩
  rw [Plus.toDense, hr] at h
  simp only at h
  rw [bind_eq_ok] at h
  obtain ⟨s2, h1, h⟩ := h
  rw [mergeSparse, bind_eq_ok] at h1
  obtain ⟨L, -, h1⟩ := h1
  rw [bind_eq_ok] at h1
  obtain ⟨d, -, h1⟩ := h1
  simp only at h1
  split at h1
  · obtain ⟨r0, L2, r, -, -, -, rfl⟩ := sparseToNormal_inv h1
    cases h
    exact key d h1
  · cases h1
    simp only [hr] at h
    exact key d h

theorem never_mW (hcfg : 36 < cfg.usizeBits) (ho : cfg.overflowChecks = false) {s : Plus I}
    (h : Never (Plus.api cfg ln c) ords [s]) (ht : Typed cfg.usizeBits s) (hr : s.registers = none)
    (hp1 : 4 ≤ s.precision) (hp2 : s.precision ≤ 18) (hb : Function.Surjective s.builder) :
    (s.counts.1 + 4) / 5 = (2 ^ s.precision + 4) / 5 := by
  have hS : GoodSize 6 := Or.inr rfl
  obtain ⟨hb1, hb2⟩ := pow_bounds cfg (by omega) hp2
  have hpos := Nat.two_pow_pos s.precision
  obtain ⟨t, rt, f, t1, t2, t3, t4, -⟩ := never_dense hcfg h hp1 hp2 hb
  obtain ⟨o, o', s', x, e1, e2⟩ := never_merge t4 (i := 0) (j := 1) (s := s) (t := t) rfl rfl
  rw [merge_some cfg o o' (by rw [t2]; simp) t1, bind_eq_ok] at e1
  obtain ⟨s1, e1, e3⟩ := e1
  obtain ⟨r0, r1, a1, a2, a3, a4, a5, a6⟩ := toDense_len ho hr hp1 hp2 e1
  rw [a4] at e3
  simp only [unwrap, ok_bind, show SIZE = 6 from rfl] at e3
  rw [Registers.plus_mergeRegs, bind_eq_ok] at e3
  obtain ⟨r2, e3, e4⟩ := e3
  cases e4
  have g := mergeFrom_wrapping hS cfg ho (rt.iter 6) 0 r1
  split at g
  swap
  · rw [g] at e3; cases e3
  obtain ⟨r', b1, b2, b3, -⟩ := g
  rw [e3] at b1
  cases b1
  obtain ⟨u1, u2⟩ := never_usableW (by omega) ho (s := { s1 with registers := some r2 }) (r := r2) (i := 0)
    (by simp only [a6]; exact hb) rfl (by simp only [a5]; exact hp1)
    (by simp only [a5]; exact hp2) e2 rfl
  simp only [a5] at u1 u2
  obtain ⟨c1, c2⟩ := withCount_wrapping ho hcfg ht.c1 a1
  rcases c2 with c2 | c2 | c2 <;> omega

theorem never_ends {st : List (Plus I)} (h : Never (Plus.api cfg ln c) ords st) {i : Nat} {s : Plus I}
    (hi : st[i]? = some s) (hr : s.registers = none) : ∃ L, s.sparse.toList cfg = .ok L := by
  obtain ⟨ord, s', x, h1, -⟩ := never_count h hi
  unfold Plus.count at h1
  simp only [hr] at h1
  rw [bind_eq_ok] at h1
  obtain ⟨s2, h1, -⟩ := h1
  rw [mergeSparse, bind_eq_ok] at h1
  obtain ⟨L, h1, -⟩ := h1
  exact ⟨L, h1⟩

end Plus
end HLL
