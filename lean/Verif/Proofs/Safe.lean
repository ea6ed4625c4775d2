import Verif.Proofs.Deserialize

/-! # Well-formed sketches stay well formed, and no call on them panics -/

namespace HLL
open Spec

namespace Plus
variable {I : Type}

theorem setGreater_hash (cfg : Cfg) (hcfg : 32 ≤ cfg.usizeBits) {p : Nat} (hp1 : 4 ≤ p) (hp2 : p ≤ 18)
    {r : Registers} {f : Nat → Nat} (hr : Registers.Lanes 6 r (2 ^ p) f) {h : Nat} (hh : h < 2 ^ 64)
    {z : U32} (hz : z.toNat = rank 64 p h) :
    ∃ r' g, r.setGreater cfg 6 (bucket 64 p h) z = .ok r' ∧ Registers.Lanes 6 r' (2 ^ p) g := by
  have hb : bucket 64 p h < 2 ^ p := bucket_lt (by omega) hh
  have hrk := rank_le 64 p h
  obtain ⟨hb1, hb2⟩ := pow_bounds cfg hcfg hp2
  obtain ⟨r', h1, h2, _⟩ := hr.setGreater (Or.inr rfl) cfg hb (v := z) (by rw [hz]; omega) (by omega)
  exact ⟨r', _, h1, h2⟩

/-- Folding good codes into any registers. -/
theorem setCodes_safe (cfg : Cfg) (hcfg : 32 ≤ cfg.usizeBits) {p : Nat} (hp1 : 4 ≤ p) (hp2 : p ≤ 18) :
    ∀ (L : List U32) (r : Registers) (f : Nat → Nat), Registers.Lanes 6 r (2 ^ p) f →
    (∀ c ∈ L, GoodCode p c.toNat) →
    ∃ r' g, setCodes cfg p L r = .ok r' ∧ Registers.Lanes 6 r' (2 ^ p) g
  | [], r, f, hr, _ => ⟨r, f, rfl, hr⟩
  | c :: cs, r, f, hr, hL => by
    obtain ⟨h, hh, hc⟩ := (goodCode_iff p c.toNat).1 (hL c (by simp))
    obtain ⟨z, hz, hzr⟩ := decodeHash_ok cfg hp1 hp2 hh hc.symm
    obtain ⟨r1, g, h1, h2⟩ := setGreater_hash cfg hcfg hp1 hp2 hr hh hzr
    obtain ⟨r', g', h3, h4⟩ := setCodes_safe cfg hcfg hp1 hp2 cs r1 g h2 (fun x hx => hL x (by simp [hx]))
    refine ⟨r', g', ?_, h4⟩
    rw [setCodes, hz, ok_bind]
    simp only
    rw [show SIZE = 6 from rfl, h1, ok_bind, h3]

/-- What is kept: the sketch is well formed and its number of sparse codes is a `usize`. -/
def Safe (cfg : Cfg) (s : Plus I) : Prop := GoodPlus s ∧ s.sparse.count < 2 ^ cfg.usizeBits

theorem Rep.good {p : Nat} {s : Plus I} {S : Finset Nat} (h : Rep p s S) : GoodPlus s := by
  obtain ⟨hb, h⟩ := h
  have hp := hb.prec
  subst hp
  refine ⟨hb.hp1, hb.hp2, hb.counts, ?_⟩
  have hgood : ∀ n ∈ codes s.precision S, GoodCode s.precision n := by
    intro n hn
    obtain ⟨h, hh, rfl⟩ := Finset.mem_image.1 hn
    exact (goodCode_iff _ _).2 ⟨h, hb.hashes h hh, rfl⟩
  rcases h with ⟨L, hs, hl, ht⟩ | ⟨r, hd⟩
  · rw [hs.regs]
    refine ⟨goodSparse_iff.2 ⟨L, hs.enc, hs.sorted, ?_⟩, hl, hs.nodup, ?_, ht⟩
    · exact fun c hc => hgood _ ((hs.mem _).2 (Or.inl (List.mem_map_of_mem hc)))
    · exact fun c hc => hgood _ ((hs.mem _).2 (Or.inr (List.mem_map_of_mem hc)))
  · rw [hd.regs]
    exact rep_goodRegs (Or.inr rfl) hd.rep.toLanes

theorem Rep.count_lt (cfg : Cfg) (hcfg : 32 ≤ cfg.usizeBits) {p : Nat} {s : Plus I} {S : Finset Nat}
    (h : Rep p s S) : s.sparse.count < 2 ^ cfg.usizeBits := by
  obtain ⟨hb, h⟩ := h
  obtain ⟨hb1, hb2⟩ := pow_bounds cfg hcfg hb.hp2
  have hcap := capacity_le hb.hp2
  rcases h with ⟨L, hs, hl, ht⟩ | ⟨r, hd⟩
  · rw [hs.enc.count_eq]
    have := length_le_len hs.enc
    omega
  · rw [hd.sparse]; simp only [DifIntVec.new]; omega

theorem Rep.safe (cfg : Cfg) (hcfg : 32 ≤ cfg.usizeBits) {p : Nat} {s : Plus I} {S : Finset Nat}
    (h : Rep p s S) : Safe cfg s := ⟨h.good, h.count_lt cfg hcfg⟩

/-- A well-formed sketch without registers holds a set of hashes. -/
theorem good_sparse {s : Plus I} (h : GoodPlus s) (hr : s.registers = none) :
    ∃ S, Rep s.precision s S := by
  obtain ⟨h1, h2, h3, h4⟩ := h
  rw [hr] at h4
  obtain ⟨h4, h5, h6, h7, h8⟩ := h4
  obtain ⟨L, e1, e2, e3⟩ := goodSparse_iff.1 h4
  classical
  let C : Finset Nat := (L.map BitVec.toNat).toFinset ∪ (s.tmpset.map BitVec.toNat).toFinset
  have hC : ∀ n ∈ C, ∃ h, h < 2 ^ 64 ∧ code s.precision h = n := by
    intro n hn
    apply (goodCode_iff _ _).1
    simp only [C, Finset.mem_union, List.mem_toFinset, List.mem_map] at hn
    rcases hn with ⟨c, hc, rfl⟩ | ⟨c, hc, rfl⟩
    exacts [e3 c hc, h7 c hc]
  choose! g hg1 hg2 using hC
  have hcodes : codes s.precision (C.image g) = C := by
    ext n
    simp only [codes, Finset.mem_image]
    constructor
    · rintro ⟨h, ⟨m, hm, rfl⟩, rfl⟩
      rw [hg2 m hm]; exact hm
    · exact fun hn => ⟨g n, ⟨n, hn, rfl⟩, hg2 n hn⟩
  refine ⟨C.image g, ⟨h1, h2, rfl, h3, ?_⟩, Or.inl ⟨L, ⟨hr, e1, e2, h6, ?_⟩, h5, h8⟩⟩
  · intro h hh
    obtain ⟨m, hm, rfl⟩ := Finset.mem_image.1 hh
    exact hg1 m hm
  · intro n
    rw [hcodes]
    simp only [C, Finset.mem_union, List.mem_toFinset]

theorem good_dense {s : Plus I} {r : Registers} (h : GoodPlus s) (hr : s.registers = some r) :
    ∃ f, Registers.Lanes 6 r (2 ^ s.precision) f := by
  obtain ⟨h1, h2, h3, h4⟩ := h
  rw [hr] at h4
  exact ⟨_, goodRegs_rep (Or.inr rfl) h4⟩

/-- Replacing the registers of a well-formed dense sketch. -/
theorem Safe.setRegs {cfg : Cfg} {s : Plus I} (h : Safe cfg s) {r : Registers} {f : Nat → Nat}
    (hr : Registers.Lanes 6 r (2 ^ s.precision) f) : Safe cfg { s with registers := some r } :=
  ⟨⟨h.1.1, h.1.2.1, h.1.2.2.1, rep_goodRegs (Or.inr rfl) hr⟩, h.2⟩

theorem insertHash_safe (cfg : Cfg) (hcfg : 32 ≤ cfg.usizeBits) (ord : IterOrder) {s : Plus I}
    (h : Safe cfg s) (x : U64) : ∃ s', insertHash cfg ord s x = .ok s' ∧ Safe cfg s' := by
  cases hr : s.registers with
  | none =>
    obtain ⟨S, hS⟩ := good_sparse h.1 hr
    obtain ⟨s', h1, h2, _⟩ := insertHash_ok cfg hcfg ord hS x
    exact ⟨s', h1, h2.safe cfg hcfg⟩
  | some r =>
    obtain ⟨f, hf⟩ := good_dense h.1 hr
    have hp1 := h.1.1
    have hp2 := h.1.2.1
    obtain ⟨hb1, hb2⟩ := pow_bounds cfg hcfg hp2
    generalize hp : s.precision = p at *
    have hxb : (x >>> (64 - p)).toNat = bucket 64 p x.toNat := by
      rw [BitVec.toNat_ushiftRight, Nat.shiftRight_eq_div_pow, bucket]
    have hbl := bucket_lt (w := 64) (p := p) (by omega) x.isLt
    have hlz := leadingZeros_guard x (p := p) (by omega) (by omega)
    have hrk := rank_le 64 p x.toNat
    have hz : (BitVec.ofNat 32 (1 + leadingZeros (x <<< p ||| 1#64 <<< (p - 1)))).toNat =
        rank 64 p x.toNat := by
      rw [hlz, BitVec.toNat_ofNat]
      exact Nat.mod_eq_of_lt (by unfold rank at hrk; omega)
    obtain ⟨r', g, h1, h2⟩ := setGreater_hash cfg hcfg hp1 hp2 hf x.isLt hz
    refine ⟨{ s with registers := some r' }, ?_, h.setRegs (by rw [hp]; exact h2)⟩
    rw [insertHash, hr]
    simp only
    rw [hp, subU8_ok cfg (by omega) (by norm_num), ok_bind, shr_ok cfg x (by omega), ok_bind,
      shl_ok cfg x (by omega), ok_bind, subU8_ok cfg (by omega) (by omega), ok_bind,
      shl_ok cfg _ (by omega), ok_bind]
    simp only [show SIZE = 6 from rfl]
    rw [hxb, Nat.mod_eq_of_lt (by omega), h1]
    rfl

theorem toDense_safe (cfg : Cfg) (hcfg : 32 ≤ cfg.usizeBits) (ord : IterOrder) {s : Plus I}
    (h : Safe cfg s) : ∃ s' r f, toDense cfg ord s = .ok s' ∧ s'.registers = some r ∧
      s'.precision = s.precision ∧ Safe cfg s' ∧ Registers.Lanes 6 r (2 ^ s.precision) f := by
  cases hr : s.registers with
  | none =>
    obtain ⟨S, hS⟩ := good_sparse h.1 hr
    obtain ⟨s', r, h1, h2, h3, h4, h5, h6, h7⟩ := toDense_ok cfg hcfg ord hS
    refine ⟨s', r, _, h1, h4, h2.prec, ⟨⟨?_, ?_, ?_, ?_⟩, ?_⟩, h5.toLanes⟩
    · rw [h2.prec]; exact h2.hp1
    · rw [h2.prec]; exact h2.hp2
    · rw [h2.prec]; exact h2.counts
    · rw [h4, h2.prec]; exact rep_goodRegs (Or.inr rfl) h5.toLanes
    · rw [h7]; simp only [DifIntVec.new]; exact Nat.two_pow_pos _
  | some r =>
    obtain ⟨f, hf⟩ := good_dense h.1 hr
    exact ⟨s, r, f, by rw [toDense, hr]; rfl, hr, rfl, h, hf⟩

theorem merge_safe (cfg : Cfg) (hcfg : 32 ≤ cfg.usizeBits) (ordS ordO : IterOrder) {s t : Plus I}
    (hs : Safe cfg s) (ht : Safe cfg t) :
    ∃ s' x, merge cfg ordS ordO s t = .ok (s', x) ∧ Safe cfg s' := by
  by_cases hp : s.precision = t.precision
  swap
  · exact ⟨s, _, merge_error cfg ordS ordO hp, hs⟩
  have hprec : ¬ (s.precision ≠ t.precision) := not_not.2 hp
  obtain ⟨hb1, hb2⟩ := pow_bounds cfg hcfg hs.1.2.1
  cases hrt : t.registers with
  | none =>
    cases hrs : s.registers with
    | none =>
      obtain ⟨S, hS⟩ := good_sparse hs.1 hrs
      obtain ⟨T, hT⟩ := good_sparse ht.1 hrt
      rw [← hp] at hT
      obtain ⟨s', h1, h2, _⟩ := merge_ok cfg hcfg ordS ordO hS hT
      exact ⟨s', _, h1, h2.safe cfg hcfg⟩
    | some r =>
      obtain ⟨f, hf⟩ := good_dense hs.1 hrs
      obtain ⟨k1, k2, k3, k4⟩ := ht.1
      rw [hrt] at k4
      obtain ⟨k4, k5, k6, k7, k8⟩ := k4
      obtain ⟨L, e1, e2, e3⟩ := goodSparse_iff.1 k4
      have hperm := ordO.perm t.tmpset
      rw [hp] at hf
      obtain ⟨r1, g1, h1, h2⟩ := setCodes_safe cfg hcfg k1 k2 (ordO.apply t.tmpset) r f hf
        (fun c hc => k7 c (hperm.mem_iff.1 hc))
      obtain ⟨r2, g2, h3, h4⟩ := setCodes_safe cfg hcfg k1 k2 L r1 g1 h2 e3
      refine ⟨{ s with registers := some r2 }, .ok (), ?_, hs.setRegs (by rw [hp]; exact h4)⟩
      rw [merge, if_neg hprec, hrt, hrs]
      simp only
      rw [h1, ok_bind, e1.toList_eq cfg, ok_bind, h3]
      rfl
  | some rt =>
    obtain ⟨g, hg⟩ := good_dense ht.1 hrt
    rw [← hp] at hg
    obtain ⟨s1, r1, f, h1, h2, h3, h4, h5⟩ := toDense_safe cfg hcfg ordS hs
    obtain ⟨r2, h8, h9, _⟩ := Registers.mergeFrom_lanes (S := 6) (Or.inr rfl) cfg (by omega) h5 hg
    refine ⟨{ s1 with registers := some r2 }, .ok (), ?_, h4.setRegs (by rw [h3]; exact h9)⟩
    rw [merge_some cfg ordS ordO hprec hrt, h1, ok_bind, h2]
    simp only [unwrap, ok_bind, show SIZE = 6 from rfl]
    rw [Registers.plus_mergeRegs, h8]
    rfl

theorem count_safe (cfg : Cfg) (hcfg : 36 < cfg.usizeBits) (ln : F64 → F64) (ord : IterOrder)
    {s : Plus I} (h : Safe cfg s) : ∃ s' c, count cfg ln ord s = .ok (s', c) ∧ Safe cfg s' := by
  have hp1 := h.1.1
  have hp2 := h.1.2.1
  cases hr : s.registers with
  | none =>
    obtain ⟨S, hS⟩ := good_sparse h.1 hr
    obtain ⟨s', h1, h2, _⟩ := count_ok cfg (by omega) ln ord (fun _ => by omega) hS
    exact ⟨s', _, h1, h2.rep.safe cfg (by omega)⟩
  | some r =>
    obtain ⟨f, hf⟩ := good_dense h.1 hr
    have e := countNormal_ok cfg (by omega) ln hp1 hp2 (by omega) hf
    have hc : s.counts.1 = 2 ^ s.precision := by rw [h.1.2.2.1]
    refine ⟨s, plusDense ln (biasOf cfg.search s.precision) s.precision ((List.range (2 ^ s.precision)).map f),
      ?_, h⟩
    unfold count
    simp only [hr, pure_eq_ok, ok_bind, hc, e]

theorem reload_safe (cfg : Cfg) (hcfg : 32 ≤ cfg.usizeBits) {c : Serde.Codec I} (ord : IterOrder)
    {s s' : Plus I} (h : Safe cfg s) (he : Serde.dePlus cfg c (Serde.serPlus c ord s) = some s') :
    Safe cfg s' := by
  obtain ⟨⟨h1, h2, h3, h4⟩, h5⟩ := h
  obtain ⟨hb1, hb2⟩ := pow_bounds cfg hcfg h2
  have hcap := capacity_le h2
  rw [Serde.dePlus_serPlus' cfg ord rfl (by omega) (by rw [h3]; simp only; omega)
    (by rw [h3]; simp only; omega) (by rw [h3]; simp only; omega) h5 ?_] at he
  · cases hb : c.de (c.ser s.builder) with
    | none => rw [hb] at he; cases he
    | some b =>
      rw [hb] at he
      simp only [Option.map_some, Option.some.injEq] at he
      subst he
      refine ⟨⟨h1, h2, h3, ?_⟩, h5⟩
      simp only
      cases hr : s.registers with
      | some r => rw [hr] at h4; exact h4
      | none =>
        rw [hr] at h4
        obtain ⟨k1, k2, k3, k4, k5⟩ := h4
        have hperm := ord.perm s.tmpset
        obtain ⟨e1, e2, e3⟩ := foldl_hashSetInsert (ord.apply s.tmpset) [] (by simp)
        rw [hperm.length_eq] at e3
        simp only [List.length_nil, Nat.zero_add] at e3
        refine ⟨k1, k2, e1, fun c hc => k4 c ?_, by omega⟩
        rw [e2] at hc
        simpa [hperm.mem_iff] using hc
  · intro r hr
    rw [hr] at h4
    have hz : r.zeros ≤ 2 ^ s.precision := (goodRegs_rep (Or.inr rfl) h4).zeros_le
    rw [h4.1]
    omega

theorem keeps_safe (cfg : Cfg) (hcfg : 36 < cfg.usizeBits) (ln : F64 → F64) (c : Serde.Codec I) :
    Keeps (Plus.api cfg ln c) (Safe cfg) where
  new p b := by
    by_cases hp : 4 ≤ p ∧ p ≤ 18
    · obtain ⟨s, h1, h2, _⟩ := new_ok cfg (by omega) hp.1 hp.2 b
      exact ⟨_, h1, fun s' hs => by cases hs; exact h2.rep.safe cfg (by omega)⟩
    · exact ⟨_, new_error cfg (by omega) b, fun s' hs => by cases hs⟩
  insert o k s v h := by
    obtain ⟨s', h1, h2⟩ := insertHash_safe cfg (by omega) o h (s.builder v)
    exact ⟨s', by cases k <;> exact h1, h2⟩
  merge o o' s t hs ht := merge_safe cfg (by omega) o o' hs ht
  count o s h := count_safe cfg hcfg ln o h
  reload o s h := ⟨_, rfl, fun s' hs => reload_safe cfg (by omega) o h hs⟩

end Plus

namespace PF
variable {I : Type}

theorem good_rep {s : PF I} (h : GoodPF s) : ∃ f, Registers.Lanes 5 s.registers (2 ^ s.precision) f :=
  ⟨_, goodRegs_rep (Or.inl rfl) h.2.2.2⟩

theorem Rep.good {p : Nat} {s : PF I} {S : Finset Nat} (h : Rep p s S) : GoodPF s := by
  have hp := h.prec
  subst hp
  exact ⟨h.hp1, h.hp2, h.count, rep_goodRegs (Or.inl rfl) h.rep.toLanes⟩

theorem good_setRegs {s : PF I} (h : GoodPF s) {r : Registers} {f : Nat → Nat}
    (hr : Registers.Lanes 5 r (2 ^ s.precision) f) : GoodPF { s with registers := r } :=
  ⟨h.1, h.2.1, h.2.2.1, rep_goodRegs (Or.inl rfl) hr⟩

theorem insertHash_safe (cfg : Cfg) (hcfg : 32 ≤ cfg.usizeBits) {s : PF I}
    (h : GoodPF s) (x : U64) : ∃ s', insertHash cfg s x = .ok s' ∧ GoodPF s' := by
  obtain ⟨f, hf⟩ := good_rep h
  have hp1 := h.1
  have hp2 := h.2.1
  obtain ⟨hb1, hb2⟩ := pow_bounds cfg (by omega) hp1 hp2
  generalize hp : s.precision = p at *
  generalize hy : (x.setWidth 32 : U32) = y
  have hxb : (y >>> (32 - p)).toNat = bucket 32 p y.toNat := by
    rw [BitVec.toNat_ushiftRight, Nat.shiftRight_eq_div_pow, bucket]
  have hbl := bucket_lt (w := 32) (p := p) (by omega) y.isLt
  have hlz := leadingZeros_guard y (p := p) (by omega) (by omega)
  have hrk := rank_le 32 p y.toNat
  have hz : (BitVec.ofNat 32 (1 + leadingZeros (y <<< p ||| 1#32 <<< (p - 1)))).toNat =
      rank 32 p y.toNat := by
    rw [hlz, BitVec.toNat_ofNat]
    exact Nat.mod_eq_of_lt (by unfold rank at hrk; omega)
  obtain ⟨r', h1, h2, _⟩ := hf.setGreater (Or.inl rfl) cfg hbl _ (by rw [hz]; omega) (by omega)
  refine ⟨{ s with registers := r' }, ?_, good_setRegs h (by rw [hp]; exact h2)⟩
  rw [insertHash]
  simp only [hy]
  rw [hp, subU8_ok cfg (by omega) (by norm_num), ok_bind, shr_ok cfg y (by omega), ok_bind,
    shl_ok cfg y (by omega), ok_bind, subU8_ok cfg (by omega) (by omega), ok_bind,
    shl_ok cfg _ (by omega), ok_bind]
  simp only [show SIZE = 5 from rfl]
  rw [hxb, Nat.mod_eq_of_lt (by omega), h1]
  rfl

theorem merge_safe (cfg : Cfg) (hcfg : 32 ≤ cfg.usizeBits) {s t : PF I} (hs : GoodPF s)
    (ht : GoodPF t) : ∃ s' x, merge cfg s t = .ok (s', x) ∧ GoodPF s' := by
  by_cases hp : s.precision = t.precision
  swap
  · exact ⟨s, _, merge_error cfg hp, hs⟩
  obtain ⟨hb1, hb2⟩ := pow_bounds cfg (by have := hs.2.1; omega) hs.1 hs.2.1
  obtain ⟨f, hf⟩ := good_rep hs
  obtain ⟨g, hg⟩ := good_rep ht
  rw [← hp] at hg
  obtain ⟨r2, h8, h9, _⟩ := Registers.mergeFrom_lanes (S := 5) (Or.inl rfl) cfg (by omega) hf hg
  refine ⟨{ s with registers := r2 }, .ok (), ?_, good_setRegs hs h9⟩
  rw [merge, if_neg (not_not.2 hp), show SIZE = 5 from rfl, Registers.pf_mergeRegs, h8]
  rfl

theorem estimate_safe (cfg : Cfg) (ln : F64 → F64) (hcfg : 32 < cfg.usizeBits) {s : PF I}
    (h : GoodPF s) : ∃ c, estimate cfg ln s = .ok c := by
  obtain ⟨f, hf⟩ := good_rep h
  have hp1 := h.1
  have hp2 := h.2.1
  rw [estimate, h.2.2.1, show SIZE = 5 from rfl,
    hf.estimateRawPlus cfg hp1 (by omega) (by omega) (Or.inl rfl) (Or.inl rfl), ok_bind]
  simp only
  rw [shl_ok cfg _ (by norm_num), ok_bind]
  split
  · exact ⟨_, rfl⟩
  · split <;> exact ⟨_, rfl⟩

theorem reload_safe (cfg : Cfg) (hcfg : 32 ≤ cfg.usizeBits) {c : Serde.Codec I}
    {s s' : PF I} (h : GoodPF s) (he : Serde.dePF cfg c (Serde.serPF c s) = some s') : GoodPF s' := by
  obtain ⟨h1, h2, h3, h4⟩ := h
  obtain ⟨hb1, hb2⟩ := pow_bounds cfg (by omega) h1 h2
  have hz : s.registers.zeros ≤ 2 ^ s.precision := (goodRegs_rep (Or.inl rfl) h4).zeros_le
  rw [Serde.dePF_serPF' cfg rfl (by omega) (by rw [h3]; omega) (by rw [h4.1]; omega) (by omega)] at he
  cases hb : c.de (c.ser s.builder) with
  | none => rw [hb] at he; cases he
  | some b =>
    rw [hb] at he
    simp only [Option.map_some, Option.some.injEq] at he
    subst he
    exact ⟨h1, h2, h3, h4⟩

theorem keeps_good (cfg : Cfg) (hcfg : 32 < cfg.usizeBits) (ln : F64 → F64) (c : Serde.Codec I) :
    Keeps (PF.api cfg ln c) GoodPF where
  new p b := by
    by_cases hp : 4 ≤ p ∧ p ≤ 16
    · obtain ⟨s, h1, h2, _⟩ := new_ok cfg (by omega) hp.1 hp.2 b
      exact ⟨_, h1, fun s' hs => by cases hs; exact h2.good⟩
    · exact ⟨_, new_error cfg (by omega) b, fun s' hs => by cases hs⟩
  insert o k s v h := by
    obtain ⟨s', h1, h2⟩ := insertHash_safe cfg (by omega) h (s.builder v)
    exact ⟨s', by cases k <;> exact h1, h2⟩
  merge o o' s t hs ht := merge_safe cfg (by omega) hs ht
  count o s h := by
    obtain ⟨x, hx⟩ := estimate_safe cfg ln hcfg h
    exact ⟨s, x, by simp only [PF.api, hx, ok_bind]; rfl, h⟩
  reload o s h := ⟨_, rfl, fun s' hs => reload_safe cfg (by omega) h hs⟩

end PF
end HLL
