import Verif.Proofs.SparseUse

/-! # A sparse `HyperLogLogPlus` on which no program panics satisfies the conditions -/

namespace HLL
open Spec Registers

namespace Plus
variable {I : Type} {cfg : Cfg} {ln : F64 → F64} {c : Serde.Codec I} {ords : Nat → IterOrder × IterOrder}

theorem never_count {st : List (Plus I)} (h : Never (Plus.api cfg ln c) ords st)
    {i : Nat} {s : Plus I} (hi : st[i]? = some s) :
    ∃ ord s' x, Plus.count cfg ln ord s = .ok (s', x) ∧ Never (Plus.api cfg ln c) ords (st.set i s') := by
  obtain ⟨n, st', o, h1, h2⟩ := h.step (.count i)
  simp only [HLL.step, hi] at h1
  rw [bind_eq_ok] at h1
  obtain ⟨⟨s', r⟩, h3, h4⟩ := h1
  cases h4
  exact ⟨_, s', r, h3, h2⟩

/-! ## A new dense sketch -/

theorem code_index (p k : Nat) (h : Nat) (hk : h / 2 ^ 39 = k) :
    k = if code p h % 2 = 1 then code p h / 128 else code p h / 2 := by
  have hf := firstOne_le 39 h
  unfold code
  simp only [hk]
  by_cases hc : k % 2 ^ (25 - p) = 0
  · rw [if_pos hc, if_pos (by omega)]; omega
  · rw [if_neg hc, if_neg (by omega)]; omega

theorem not_fits {p : Nat} (hp2 : p ≤ 18) {S : Finset Nat} (hS : ∀ k < 2 ^ 18, k * 2 ^ 39 ∈ S) :
    ¬ fitsSparse p S := by
  intro h
  unfold fitsSparse encSize at h
  have h1 := length_le_gapsSize ((codes p S).sort (· ≤ ·)) 0
  rw [Finset.length_sort] at h1
  have h2 := capacity_le hp2
  have h3 : (Finset.range (2 ^ 18)).card ≤ (codes p S).card := by
    apply Finset.card_le_card_of_injOn (fun k => code p (k * 2 ^ 39))
    · intro k hk
      exact Finset.mem_coe.2 (Finset.mem_image_of_mem _ (hS k (Finset.mem_range.1 (Finset.mem_coe.1 hk))))
    · intro a _ b _ hab
      have ha := code_index p a (a * 2 ^ 39) (Nat.mul_div_cancel _ (by norm_num))
      have hb := code_index p b (b * 2 ^ 39) (Nat.mul_div_cancel _ (by norm_num))
      simp only at hab
      rw [hab] at ha
      rw [ha]; exact hb.symm
  rw [Finset.card_range] at h3
  omega

theorem never_dense (hcfg : 36 < cfg.usizeBits) {st : List (Plus I)} (h : Never (Plus.api cfg ln c) ords st)
    {p : Nat} (hp1 : 4 ≤ p) (hp2 : p ≤ 18) {b : I → U64} (hb : Function.Surjective b) :
    ∃ t r f, t.registers = some r ∧ t.precision = p ∧ Registers.Lanes 6 r (2 ^ p) f ∧
      Never (Plus.api cfg ln c) ords (st ++ [t]) ∧ t.builder = b := by
  obtain ⟨t0, g1, g2, g3⟩ := new_ok cfg (by omega) hp1 hp2 b
  have h0 := never_new h g1
  have key : ∀ n ≤ 2 ^ 18, ∃ (t : Plus I) (S : Finset Nat), Never (Plus.api cfg ln c) ords (st ++ [t]) ∧
      Rep p t S ∧ t.builder = b ∧ ∀ k < n, k * 2 ^ 39 ∈ S := by
    intro n
    induction n with
    | zero => exact fun _ => ⟨t0, ∅, h0, g2.rep, g3, by simp⟩
    | succ n ih =>
      intro hn
      obtain ⟨t, S, h1, h2, h3, h4⟩ := ih (by omega)
      obtain ⟨x, hx⟩ := hb (BitVec.ofNat 64 (n * 2 ^ 39))
      obtain ⟨ord, t', e1, e2⟩ := never_insert h1 (i := st.length) (s := t) (by simp) x
      obtain ⟨t'', e3, e4, e5⟩ := insertHash_ok cfg (by omega) ord h2 (t.builder x)
      rw [e1] at e3
      cases e3
      rw [h3, hx, BitVec.toNat_ofNat, Nat.mod_eq_of_lt (by omega)] at e4
      refine ⟨t', _, by simpa using e2, e4, e5.trans h3, ?_⟩
      intro k hk
      rw [Finset.mem_insert]
      by_cases hkn : k = n
      · exact Or.inl (by rw [hkn])
      · exact Or.inr (h4 k (by omega))
  obtain ⟨t, S, h1, h2, h3, h4⟩ := key _ le_rfl
  obtain ⟨ord, t', x, e1, e2⟩ := never_count h1 (i := st.length) (s := t) (by simp)
  obtain ⟨t'', e3, e4, e5⟩ := count_ok cfg (by omega) ln ord (fun _ => by omega) h2
  rw [e1] at e3
  cases e3
  rcases e4.2 with ⟨L, -, -, hf⟩ | ⟨r, hd⟩
  · exact absurd hf (not_fits hp2 h4)
  · exact ⟨t', r, _, hd.regs, e4.1.prec, hd.rep.toLanes, by simpa using e2, e5.trans h3⟩

/-! ## Sparse sketches of any form -/

/-- A sparse sketch whose codes can be read. -/
structure SRaw (cfg : Cfg) (B : Nat) (s : Plus I) (L : List U32) : Prop where
  regs : s.registers = none
  read : s.sparse.toList cfg = .ok L
  sorted : L.Pairwise (· ≤ ·)
  nodup : s.tmpset.Nodup
  size : L.length ≤ B + (L.map BitVec.toNat).toFinset.card

theorem SRaw.flush {B : Nat} (hcfg : 39 ≤ cfg.usizeBits) (hB : B < 2 ^ (cfg.usizeBits - 1)) (ord : IterOrder)
    {s : Plus I} {L : List U32} (h : SRaw cfg B s L) : ∃ d L', DifIntVec.Enc d L' ∧
      L'.map BitVec.toNat = withCodes (L.map BitVec.toNat) (tmpNat s) ∧
      SRaw cfg B { s with sparse := d, tmpset := [] } L' ∧
      mergeSparse cfg ord s = if d.len > s.counts.2.2 then
        sparseToNormal cfg { s with sparse := d, tmpset := [] }
        else .ok { s with sparse := d, tmpset := [] } := by
  have hlen : s.tmpset.length + L.length < 2 ^ cfg.usizeBits := by
    have h1 := h.size
    have h2 := card_toNat_le L
    have h3 := nodup_length_le h.nodup
    have h4 : 2 ^ 38 ≤ 2 ^ (cfg.usizeBits - 1) := Nat.pow_le_pow_right (by norm_num) (by omega)
    have h5 : 2 ^ cfg.usizeBits = 2 * 2 ^ (cfg.usizeBits - 1) := by
      rw [← pow_succ']; congr 1; omega
    omega
  obtain ⟨d, L', h1, h2, h3⟩ := mergeSparse_list cfg ord h.sorted h.nodup hlen
  refine ⟨d, L', h2, h3, ⟨h.regs, h2.toList_eq cfg, h2.sorted, List.nodup_nil, ?_⟩, ?_⟩
  · have h5 : L'.length = L.length + (tmpNat s \ (L.map BitVec.toNat).toFinset).card := by
      rw [← L'.length_map (f := BitVec.toNat), h3, length_withCodes, List.length_map, tmpNat]
    have h6 : (L'.map BitVec.toNat).toFinset.card =
        (L.map BitVec.toNat).toFinset.card + (tmpNat s \ (L.map BitVec.toNat).toFinset).card := by
      rw [← Finset.card_union_of_disjoint Finset.disjoint_sdiff, Finset.union_sdiff_self_eq_union]
      congr 1
      ext n
      rw [h3, List.mem_toFinset, mem_withCodes, Finset.mem_union, List.mem_toFinset, tmpNat]
      simp only [List.mem_toFinset]
    have := h.size
    omega
  · rw [mergeSparse, h.read]
    simp only [ok_bind, h1]
    rfl

theorem SRaw.tmp {B : Nat} {s : Plus I} {L : List U32} (h : SRaw cfg B s L) {T : List U32} (hT : T.Nodup) :
    SRaw cfg B { s with tmpset := T } L := ⟨h.regs, h.read, h.sorted, hT, h.size⟩

/-- Inserting hashes with the codes `X`, as long as all codes fit. -/
theorem never_codes {B : Nat} (hcfg : 39 ≤ cfg.usizeBits) (hB : B < 2 ^ (cfg.usizeBits - 1)) {st : List (Plus I)}
    (h : Never (Plus.api cfg ln c) ords st) {i : Nat} {s : Plus I} {L : List U32} (hi : st[i]? = some s)
    (hs : SRaw cfg B s L) (hp1 : 4 ≤ s.precision) (hp2 : s.precision ≤ 18)
    (hb : Function.Surjective s.builder) (X : Finset Nat) : (∀ n ∈ X, GoodCode s.precision n) →
    gapsSize 0 (withCodes (L.map BitVec.toNat) (tmpNat s ∪ X)) ≤ s.counts.2.2 →
    ∃ s' L', Never (Plus.api cfg ln c) ords (st.set i s') ∧ SRaw cfg B s' L' ∧ s'.counts = s.counts ∧
      s'.precision = s.precision ∧ s'.builder = s.builder ∧
      withCodes (L'.map BitVec.toNat) (tmpNat s') = withCodes (L.map BitVec.toNat) (tmpNat s ∪ X) := by
  have hil : i < st.length := (List.getElem?_eq_some_iff.1 hi).1
  induction X using Finset.induction_on with
  | empty =>
    intro _ _
    refine ⟨s, L, ?_, hs, rfl, rfl, rfl, by simp⟩
    have : st.set i s = st := by
      apply List.ext_getElem?
      intro j
      by_cases hj : i = j
      · subst hj; rw [List.getElem?_set_self hil, hi]
      · rw [List.getElem?_set_ne hj]
    rw [this]; exact h
  | insert n X hn ih =>
    intro hX hfit
    obtain ⟨s1, L1, a1, a2, a3, a4, a5, a6⟩ := ih (fun m hm => hX m (Finset.mem_insert_of_mem hm))
      ((withCodes_mono (Finset.union_subset_union_right (Finset.subset_insert _ _))).trans hfit)
    obtain ⟨y, hy, hyc⟩ := (goodCode_iff _ _).1 (hX n (Finset.mem_insert_self _ _))
    obtain ⟨x, hx⟩ := hb (BitVec.ofNat 64 y)
    obtain ⟨ord, s2, e1, e2⟩ := never_insert a1 (i := i) (s := s1) (List.getElem?_set_self hil) x
    rw [a5] at e1
    obtain ⟨k, hk, hkv⟩ := encodeHash_ok cfg hp1 hp2 (s.builder x)
    have hkn : k.toNat = n := by
      rw [hkv, hx, BitVec.toNat_ofNat, Nat.mod_eq_of_lt hy, hyc]
    rw [← a4] at hk
    rw [insertHash_none cfg ord _ a2.regs, hk, ok_bind] at e1
    have hs1 := a2.tmp (T := hashSetInsert s1.tmpset k) (nodup_hashSetInsert a2.nodup k)
    have ht : tmpNat { s1 with tmpset := hashSetInsert s1.tmpset k } = tmpNat s1 ∪ {n} := by
      ext m
      simp only [tmpNat, List.mem_toFinset, List.mem_map, mem_hashSetInsert, Finset.mem_union, Finset.mem_singleton]
      constructor
      · rintro ⟨a, rfl | ha, rfl⟩
        exacts [Or.inr hkn, Or.inl ⟨a, ha, rfl⟩]
      · rintro (⟨a, ha, rfl⟩ | rfl)
        exacts [⟨a, Or.inr ha, rfl⟩, ⟨k, Or.inl rfl, hkn⟩]
    have hw : withCodes (L1.map BitVec.toNat) (tmpNat { s1 with tmpset := hashSetInsert s1.tmpset k }) =
        withCodes (L.map BitVec.toNat) (tmpNat s ∪ Insert.insert n X) := by
      rw [ht, ← withCodes_withCodes, a6, withCodes_withCodes]
      congr 1
      ext m
      simp only [Finset.mem_union, Finset.mem_insert, Finset.mem_singleton]
      tauto
    have hset : ∀ s', (st.set i s1).set i s' = st.set i s' := fun s' => List.set_set _
    rw [hset] at e2
    rw [maybeMergeSparse, bind_eq_ok] at e1
    obtain ⟨q, -, e1⟩ := e1
    split at e1
    · obtain ⟨d, L', f1, f2, f3, f4⟩ := hs1.flush hcfg hB ord
      rw [f4, if_neg] at e1
      · cases e1
        refine ⟨_, L', e2, f3, a3, a4, a5, ?_⟩
        rw [f2, hw]
        simp only [tmpNat, List.map_nil, List.toFinset_nil]
        rw [withCodes_withCodes, Finset.union_empty]
      · rw [f1.len_eq, f2, hw]
        show ¬ _ > s1.counts.2.2
        rw [a3]
        omega
    · cases e1
      exact ⟨_, L1, e2, hs1, a3, a4, a5, hw⟩

theorem never_room {B : Nat} (hcfg : 39 ≤ cfg.usizeBits) (ho : cfg.overflowChecks = true)
    (hB : B < 2 ^ (cfg.usizeBits - 1)) {st : List (Plus I)}
    (h : Never (Plus.api cfg ln c) ords st) {i : Nat} {s : Plus I} {L : List U32} (hi : st[i]? = some s)
    (hs : SRaw cfg B s L) (hp1 : 4 ≤ s.precision) (hp2 : s.precision ≤ 18)
    (hb : Function.Surjective s.builder) (X : Finset Nat) (hX : ∀ n ∈ X, GoodCode s.precision n)
    (hfit : gapsSize 0 (withCodes (L.map BitVec.toNat) (tmpNat s ∪ X)) ≤ s.counts.2.2) :
    (withCodes (L.map BitVec.toNat) (tmpNat s ∪ X)).length ≤ s.counts.2.1 := by
  have hil : i < st.length := (List.getElem?_eq_some_iff.1 hi).1
  obtain ⟨s1, L1, a1, a2, a3, a4, a5, a6⟩ := never_codes hcfg hB h hi hs hp1 hp2 hb X hX hfit
  obtain ⟨ord, s2, x, e1, -⟩ := never_count a1 (i := i) (s := s1) (List.getElem?_set_self hil)
  obtain ⟨d, L', f1, f2, f3, f4⟩ := a2.flush hcfg hB ord
  rw [if_neg (by rw [f1.len_eq, f2, a6, a3]; omega)] at f4
  unfold Plus.count at e1
  simp only [a2.regs, f4, ok_bind] at e1
  rw [bind_eq_ok] at e1
  obtain ⟨q, h1, -⟩ := e1
  rw [← a6, ← f2, List.length_map, ← f1.count_eq, ← a3]
  by_contra hcon
  rw [subUsize, ck, if_neg (by omega), ho] at h1
  cases h1

/-! ## The number of registers -/

theorem withCount_inv (ho : cfg.overflowChecks = true) {n : Nat} {r : Registers}
    (h : withCount cfg 6 n = .ok r) : n < 2 ^ cfg.usizeBits ∧ r.count = n ∧ r.zeros = n ∧
      r.buf.length = (n + 4) / 5 ∧ ∀ k, fld 6 r k = 0 := by
  have hlt : n + 5 < 2 ^ cfg.usizeBits := by
    by_contra hcon
    rw [withCount, ceil, addUsize, ck, if_neg (by
      rw [show perWord 6 = 5 from rfl]
      push_cast
      intro h
      have h2 := h.2
      norm_cast at h2
      ), ho] at h
    cases h
  rw [withCount, ceil_ok cfg (d := perWord 6) (by decide) hlt] at h
  cases h
  refine ⟨by omega, rfl, rfl, by simp [show perWord 6 = 5 from rfl], fun k => ?_⟩
  by_cases hk : k / perWord 6 < (n + perWord 6 - 1) / perWord 6
  · rw [fld_of_word (Or.inr rfl) (w := 0#32) (by simp [hk])]
    simp [lane]
  · exact fld_beyond (by simp only [List.length_replicate]; omega)

theorem setCodes_inv (ho : cfg.overflowChecks = true) {p : Nat} (hp1 : 4 ≤ p) (hp2 : p ≤ 18) :
    ∀ (L : List U32) (r r' : Registers), (∀ k ∈ L, RankFits p k.toNat) → r.zeros < 2 ^ cfg.usizeBits →
    setCodes cfg p L r = .ok r' →
    r'.count = r.count ∧ r'.buf.length = r.buf.length ∧ r'.zeros ≤ r.zeros ∧
      r'.zeros + zeroFields (2 ^ p) (fld 6 r) = r.zeros + zeroFields (2 ^ p) (fld 6 r')
  | [], r, r', _, _, h => by cases h; exact ⟨rfl, rfl, le_rfl, rfl⟩
  | k :: ks, r, r', hL, hz, h => by
    obtain ⟨z, j, hz1, hj, hz2, _⟩ := decodeHash_any cfg hp1 hp2 k
    rw [setCodes, hz1, ok_bind] at h
    simp only at h
    rw [bind_eq_ok] at h
    obtain ⟨r1, h1, h2⟩ := h
    rw [show SIZE = 6 from rfl] at h1
    rcases setGreater_cases (Or.inr rfl) cfg ho hz (i := j) (hz2 (hL k (by simp))) with g | g | g
    · rw [g.2] at h1; cases h1
    · rw [g.2.2.2.2] at h1; cases h1
    · obtain ⟨_, r2, e1, e2, e3, e4, e5, e6⟩ := g
      rw [h1] at e1
      cases e1
      obtain ⟨b1, b2, b3, b4⟩ := setCodes_inv ho hp1 hp2 ks r1 r' (fun x hx => hL x (by simp [hx])) (by omega) h2
      have := e6 _ hj
      exact ⟨by omega, by omega, by omega, by omega⟩

theorem sparseToNormal_inv {s s' : Plus I} (h : sparseToNormal cfg s = .ok s') :
    ∃ r0 L r, withCount cfg 6 s.counts.1 = .ok r0 ∧ s.sparse.toList cfg = .ok L ∧
      setCodes cfg s.precision L r0 = .ok r ∧
      s' = { s with registers := some r, tmpset := [], sparse := s.sparse.clear } := by
  rw [sparseToNormal, bind_eq_ok] at h
  obtain ⟨r0, h1, h⟩ := h
  rw [bind_eq_ok] at h
  obtain ⟨L, h2, h⟩ := h
  rw [bind_eq_ok] at h
  obtain ⟨r, h3, h⟩ := h
  cases h
  exact ⟨r0, L, r, h1, h2, h3, rfl⟩

/-- The first step of merging a dense sketch into a sparse one. -/
theorem SRaw.toDense {B : Nat} (hcfg : 39 ≤ cfg.usizeBits) (hB : B < 2 ^ (cfg.usizeBits - 1)) (ord : IterOrder)
    {s s1 : Plus I} {L : List U32} (hs : SRaw cfg B s L) (h : Plus.toDense cfg ord s = .ok s1) :
    ∃ r0 L' r, withCount cfg 6 s.counts.1 = .ok r0 ∧ setCodes cfg s.precision L' r0 = .ok r ∧
      (∀ k, k ∈ L' ↔ k ∈ L ∨ k ∈ s.tmpset) ∧ s1.registers = some r ∧ s1.precision = s.precision ∧
      s1.builder = s.builder ∧ s1.counts = s.counts ∧ s1.sparse.count = 0 := by
  obtain ⟨d, L', f1, f2, f3, f4⟩ := hs.flush hcfg hB ord
  have hmem : ∀ k, k ∈ L' ↔ k ∈ L ∨ k ∈ s.tmpset := by
    intro k
    rw [← mem_map_toNat, f2, mem_withCodes, tmpNat, List.mem_toFinset, mem_map_toNat, mem_map_toNat]
  have hn : sparseToNormal cfg { s with sparse := d, tmpset := [] } = .ok s1 := by
    rw [Plus.toDense, hs.regs] at h
    simp only at h
    rw [f4] at h
    split at h
    · rw [bind_eq_ok] at h
      obtain ⟨s2, h1, h2⟩ := h
      obtain ⟨r0, L2, r, -, -, -, rfl⟩ := sparseToNormal_inv h1
      cases h2
      exact h1
    · rw [ok_bind] at h
      simp only [hs.regs] at h
      exact h
  obtain ⟨r0, L2, r, h1, h2, h3, rfl⟩ := sparseToNormal_inv hn
  simp only at h1 h2 h3
  rw [f1.toList_eq cfg] at h2
  cases h2
  exact ⟨r0, L', r, h1, h3, hmem, rfl, rfl, rfl, rfl, rfl⟩

theorem never_m {B : Nat} (hcfg : 39 ≤ cfg.usizeBits) (ho : cfg.overflowChecks = true)
    (hB : B < 2 ^ (cfg.usizeBits - 1)) {s : Plus I} {L : List U32}
    (h : Never (Plus.api cfg ln c) ords [s]) (ht : Typed cfg.usizeBits s)
    (hs : SRaw cfg B s L) (hp1 : 4 ≤ s.precision) (hp2 : s.precision ≤ 18)
    (hb : Function.Surjective s.builder) (hR : ∀ k, k ∈ L ∨ k ∈ s.tmpset → RankFits s.precision k.toNat) :
    2 ^ s.precision ≤ s.counts.1 ∧ s.counts.1 ≤ 5 * ((2 ^ s.precision + 4) / 5) := by
  have hS : GoodSize 6 := Or.inr rfl
  have hw : perWord 6 = 5 := rfl
  obtain ⟨t, rt, f, t1, t2, t3, t4, -⟩ := never_dense (by omega) h hp1 hp2 hb
  obtain ⟨o, o', s', x, e1, e2⟩ := never_merge t4 (i := 0) (j := 1) (s := s) (t := t) rfl rfl
  rw [merge_some cfg o o' (by rw [t2]; simp) t1, bind_eq_ok] at e1
  obtain ⟨s1, e1, e3⟩ := e1
  obtain ⟨r0, L', r1, a1, a2, a3, a4, a5, a6, a7, a8⟩ := hs.toDense hcfg hB o e1
  rw [a4] at e3
  simp only [unwrap, ok_bind, show SIZE = 6 from rfl] at e3
  rw [Registers.plus_mergeRegs, bind_eq_ok] at e3
  obtain ⟨r2, e3, e4⟩ := e3
  cases e4
  obtain ⟨c1, c2, c3, c4, c5⟩ := withCount_inv ho a1
  obtain ⟨d1, d2, d3, d4⟩ := setCodes_inv ho hp1 hp2 L' r0 r1 (fun k hk => hR k ((a3 k).1 hk)) (by omega) a2
  obtain ⟨b1, b2, b3, b4, b5, b6⟩ := mergeFrom_inv hS cfg ho _ _ _ _ (by omega) (iter_lt hS _) e3
  have hlt : (rt.iter 6).length = 2 ^ s.precision := t3.length_iter hS
  have b7 := b6 (2 ^ s.precision) (by omega)
  have hz0 : zeroFields (2 ^ s.precision) (fld 6 r0) = 2 ^ s.precision := by
    rw [zeroFields, Finset.filter_true_of_mem (fun k _ => c5 k), Finset.card_range]
  have hu := never_usable (by omega) ho (s := { s1 with registers := some r2 }) (r := r2) (i := 0)
    ⟨by simp only [a5]; exact ht.prec, by simp only [a7]; exact ht.c1, by simp only [a7]; exact ht.c2,
      by simp only [a7]; exact ht.c3, ?_, ?_⟩ (by simp only [a6]; exact hb) rfl (by simp only [a5]; exact hp1)
      (by simp only [a5]; exact hp2) e2 rfl
  · simp only [a5] at hu
    obtain ⟨u1, u2, u3⟩ := hu
    rw [usable_zeros] at u2
    refine ⟨by omega, ?_⟩
    by_contra hcon
    have := (u3 (5 * ((2 ^ s.precision + 4) / 5)) (by omega) (by omega)).1
    omega
  · simp only [a8]; exact Nat.two_pow_pos _
  · intro r hr
    cases hr
    omega

end Plus
end HLL
