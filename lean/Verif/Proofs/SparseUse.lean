import Verif.Proofs.SparseRead
import Verif.Proofs.SevenBits

/-! # When no program panics on a given sparse `HyperLogLogPlus` -/

namespace HLL
open Spec Registers

namespace Plus
variable {I : Type}

/-! ## The loops on arbitrary codes -/

theorem pairwise_snoc_le {O : List U32} {v : U32} {L : List U32} (h : ∀ x ∈ O, ∀ y ∈ L, x ≤ y)
    (hv : ∀ y ∈ L, v ≤ y) : ∀ x ∈ O ++ [v], ∀ y ∈ L, x ≤ y := by
  intro x hx y hy
  rcases List.mem_append.1 hx with hx | hx
  · exact h x hx y hy
  · rw [List.mem_singleton] at hx; rw [hx]; exact hv y hy

/-- `merge_sparse` on a sorted set and a list with repetitions. -/
theorem mergeLoop_perm (cfg : Cfg) : ∀ (as bs : List U32) (out : DifIntVec) (O : List U32),
    DifIntVec.Enc out O → SortedLT as → bs.Pairwise (· ≤ ·) →
    (∀ x ∈ O, ∀ y ∈ as, x ≤ y) → (∀ x ∈ O, ∀ y ∈ bs, x ≤ y) →
    O.length + as.length + bs.length < 2 ^ cfg.usizeBits →
    ∃ d L, mergeLoop cfg as bs out = .ok d ∧ DifIntVec.Enc d L ∧
      L.Perm (O ++ (bs ++ as.filter fun a => a ∉ bs)) := by
  intro as bs out
  induction as, bs, out using mergeLoop.induct with
  | case1 out =>
    intro O hE _ _ _ _ _
    exact ⟨out, O, by rw [mergeLoop]; rfl, hE, by simp⟩
  | case2 b bs out ih =>
    intro O hE ha hb hOa hOb hlen
    simp only [List.length_cons, List.length_nil] at hlen
    have hb' := List.pairwise_cons.1 hb
    obtain ⟨d, hd, hEd⟩ := DifIntVec.enc_push cfg hE b (fun x hx => hOb x hx b (by simp)) (by omega)
    obtain ⟨d', L, h1, h2, h3⟩ := ih d (O ++ [b]) hEd ha hb'.2 (by simp)
      (pairwise_snoc_le (fun x hx y hy => hOb x hx y (by simp [hy])) hb'.1)
      (by simp only [List.length_append, List.length_cons, List.length_nil]; omega)
    refine ⟨d', L, by rw [mergeLoop, hd, ok_bind, h1], h2, ?_⟩
    simpa using h3
  | case3 a as out ih =>
    intro O hE ha hb hOa hOb hlen
    simp only [List.length_cons, List.length_nil] at hlen
    have ha' := List.pairwise_cons.1 ha
    obtain ⟨d, hd, hEd⟩ := DifIntVec.enc_push cfg hE a (fun x hx => hOa x hx a (by simp)) (by omega)
    obtain ⟨d', L, h1, h2, h3⟩ := ih d (O ++ [a]) hEd ha'.2 hb
      (pairwise_snoc_le (fun x hx y hy => hOa x hx y (by simp [hy]))
        (fun y hy => BitVec.le_def.2 (Nat.le_of_lt (ha'.1 y hy)))) (by simp)
      (by simp only [List.length_append, List.length_cons, List.length_nil]; omega)
    refine ⟨d', L, by rw [mergeLoop, hd, ok_bind, h1], h2, ?_⟩
    simpa using h3
  | case4 as a bs out ih =>
    intro O hE ha hb hOa hOb hlen
    simp only [List.length_cons] at hlen
    have ha' := List.pairwise_cons.1 ha
    have hb' := List.pairwise_cons.1 hb
    obtain ⟨d, hd, hEd⟩ := DifIntVec.enc_push cfg hE a (fun x hx => hOa x hx a (by simp)) (by omega)
    obtain ⟨d', L, h1, h2, h3⟩ := ih d (O ++ [a]) hEd ha'.2 hb'.2
      (pairwise_snoc_le (fun x hx y hy => hOa x hx y (by simp [hy]))
        (fun y hy => BitVec.le_def.2 (Nat.le_of_lt (ha'.1 y hy))))
      (pairwise_snoc_le (fun x hx y hy => hOb x hx y (by simp [hy])) hb'.1)
      (by simp only [List.length_append, List.length_cons, List.length_nil]; omega)
    refine ⟨d', L, by rw [mergeLoop, if_pos rfl, hd, ok_bind, h1], h2, ?_⟩
    have : (a :: as).filter (fun x => x ∉ a :: bs) = as.filter (fun x => x ∉ bs) := by
      rw [List.filter_cons_of_neg (by simp)]
      apply List.filter_congr
      intro x hx
      have : x ≠ a := by rintro rfl; exact absurd (ha'.1 x hx) (lt_irrefl _)
      simp [this]
    rw [this]
    simpa using h3
  | case5 a as b bs out hne hgt ih =>
    intro O hE ha hb hOa hOb hlen
    simp only [List.length_cons] at hlen
    have ha' := List.pairwise_cons.1 ha
    have hb' := List.pairwise_cons.1 hb
    have hlt : b.toNat < a.toNat := BitVec.lt_def.1 hgt
    have hall : ∀ y ∈ a :: as, b.toNat < y.toNat := by
      intro y hy
      rcases List.mem_cons.1 hy with rfl | hy
      · exact hlt
      · exact lt_trans hlt (ha'.1 y hy)
    obtain ⟨d, hd, hEd⟩ := DifIntVec.enc_push cfg hE b (fun x hx => hOb x hx b (by simp)) (by omega)
    obtain ⟨d', L, h1, h2, h3⟩ := ih d (O ++ [b]) hEd ha hb'.2
      (pairwise_snoc_le (fun x hx y hy => hOa x hx y hy)
        (fun y hy => BitVec.le_def.2 (Nat.le_of_lt (hall y hy))))
      (pairwise_snoc_le (fun x hx y hy => hOb x hx y (by simp [hy])) hb'.1)
      (by simp only [List.length_append, List.length_cons, List.length_nil]; omega)
    refine ⟨d', L, by rw [mergeLoop, if_neg hne, if_pos hgt, hd, ok_bind, h1], h2, ?_⟩
    have : (a :: as).filter (fun x => x ∉ b :: bs) = (a :: as).filter (fun x => x ∉ bs) := by
      apply List.filter_congr
      intro x hx
      have : x ≠ b := by rintro rfl; exact absurd (hall x hx) (lt_irrefl _)
      simp [this]
    rw [this]
    simpa using h3
  | case6 a as b bs out hne hgt ih =>
    intro O hE ha hb hOa hOb hlen
    simp only [List.length_cons] at hlen
    have ha' := List.pairwise_cons.1 ha
    have hb' := List.pairwise_cons.1 hb
    have hlt : a.toNat < b.toNat := by
      have h1 : ¬ b.toNat < a.toNat := fun h => hgt (BitVec.lt_def.2 h)
      have h2 : a.toNat ≠ b.toNat := fun h => hne (BitVec.eq_of_toNat_eq h)
      omega
    have hall : ∀ y ∈ b :: bs, a.toNat < y.toNat := by
      intro y hy
      rcases List.mem_cons.1 hy with rfl | hy
      · exact hlt
      · exact lt_of_lt_of_le hlt (BitVec.le_def.1 (hb'.1 y hy))
    obtain ⟨d, hd, hEd⟩ := DifIntVec.enc_push cfg hE a (fun x hx => hOa x hx a (by simp)) (by omega)
    obtain ⟨d', L, h1, h2, h3⟩ := ih d (O ++ [a]) hEd ha'.2 hb
      (pairwise_snoc_le (fun x hx y hy => hOa x hx y (by simp [hy]))
        (fun y hy => BitVec.le_def.2 (Nat.le_of_lt (ha'.1 y hy))))
      (pairwise_snoc_le (fun x hx y hy => hOb x hx y hy)
        (fun y hy => BitVec.le_def.2 (Nat.le_of_lt (hall y hy))))
      (by simp only [List.length_append, List.length_cons, List.length_nil]; omega)
    refine ⟨d', L, by rw [mergeLoop, if_neg hne, if_neg hgt, hd, ok_bind, h1], h2, ?_⟩
    have hna : a ∉ b :: bs := fun h => absurd (hall a h) (lt_irrefl _)
    rw [List.filter_cons_of_pos (by simpa using hna)]
    refine h3.trans ?_
    rw [List.append_assoc]
    exact List.Perm.append_left _ (List.perm_middle (l₁ := b :: bs)).symm

/-- Every code decodes to a register. -/
theorem decodeHash_any (cfg : Cfg) {p : Nat} (hp1 : 4 ≤ p) (hp2 : p ≤ 18) (c : U32) :
    ∃ z i, decodeHash cfg p c = .ok (z, i) ∧ i < 2 ^ p ∧ (RankFits p c.toNat → z.toNat < 2 ^ 6) ∧
      if c.toNat % 2 = 1 then z.toNat = c.toNat / 2 % 64 + (25 - p) ∧ i = c.toNat / 2 ^ (32 - p)
      else z.toNat < 2 ^ 6 := by
  have hpow : 2 ^ 32 = 2 ^ p * 2 ^ (32 - p) := by rw [← pow_add]; congr 1; omega
  by_cases hodd : c &&& 1#32 = 1#32
  · obtain ⟨x, hx, hxv⟩ := extract32_ok cfg c (hi := 7) (lo := 1) (by norm_num) (by norm_num) (by norm_num)
    obtain ⟨y, hy, hyv⟩ := extract32_ok cfg c (hi := 32) (lo := 32 - p) (by omega) (by norm_num) (by norm_num)
    have hx' : x.toNat = c.toNat / 2 % 64 := by rw [hxv]; norm_num; omega
    have hd : (BitVec.ofNat 32 (25 - p)).toNat = 25 - p := by rw [BitVec.toNat_ofNat]; omega
    rw [decodeHash, if_pos hodd, hx]
    simp only [ok_bind]
    rw [subU8_ok cfg (show p ≤ PRIME_PRECISION by simp only [PRIME_PRECISION]; omega) (by decide)]
    simp only [ok_bind, PRIME_PRECISION]
    rw [addU32_ok cfg (by rw [hx', hd]; omega)]
    simp only [ok_bind]
    rw [indexOf, if_pos hodd, subU8_ok cfg (show p ≤ 32 by omega) (by norm_num)]
    simp only [ok_bind]
    rw [hy]
    refine ⟨_, _, rfl, ?_, ?_⟩
    · rw [hyv, show 32 - (32 - (32 - p)) = 32 - p by omega, Nat.div_lt_iff_lt_mul (Nat.two_pow_pos _), ← hpow]
      exact Nat.mod_lt _ (by norm_num)
    · have hz : (x + BitVec.ofNat 32 (25 - p)).toNat = c.toNat / 2 % 64 + (25 - p) := by
        rw [BitVec.toNat_add, hx', hd]
        omega
      have ho := (and_one_iff c).1 hodd
      refine ⟨fun hf => ?_, ?_⟩
      · have := hf ho
        rw [hz]
        omega
      · rw [if_pos ho, hz, hyv, show 32 - (32 - (32 - p)) = 32 - p by omega,
          Nat.sub_self, pow_zero, Nat.mul_one, Nat.mod_eq_of_lt c.isLt]
        exact ⟨rfl, rfl⟩
  · obtain ⟨y, hy, hyv⟩ := extract32_ok cfg c (hi := 26) (lo := 26 - p) (by omega) (by norm_num) (by norm_num)
    rw [decodeHash, if_neg hodd]
    rw [show subU8 cfg 32 PRIME_PRECISION = .ok 7 from subU8_ok cfg (by decide) (by norm_num)]
    simp only [ok_bind]
    rw [addU8_ok cfg (show 7 + p < 256 by omega)]
    simp only [ok_bind]
    rw [subU8_ok cfg (show 1 ≤ 7 + p by omega) (by omega)]
    simp only [ok_bind]
    rw [shl_ok cfg c (show 7 + p - 1 < 32 by omega)]
    simp only [ok_bind]
    rw [indexOf, if_neg hodd]
    rw [show addU8 cfg PRIME_PRECISION 1 = .ok 26 from addU8_ok cfg (by decide)]
    simp only [ok_bind]
    rw [subU8_ok cfg (show p ≤ PRIME_PRECISION by simp only [PRIME_PRECISION]; omega) (by decide)]
    simp only [ok_bind, PRIME_PRECISION]
    rw [addU8_ok cfg (show 25 - p + 1 < 256 by omega), show 25 - p + 1 = 26 - p by omega]
    simp only [ok_bind]
    rw [hy]
    have hlz : (BitVec.ofNat 32 (leadingZeros (c <<< (7 + p - 1)) + 1)).toNat < 2 ^ 6 := by
      have : leadingZeros (c <<< (7 + p - 1)) ≤ 32 := by unfold leadingZeros; split <;> omega
      rw [BitVec.toNat_ofNat]
      omega
    refine ⟨_, _, rfl, ?_, fun _ => hlz, ?_⟩
    · rw [hyv, show 32 - (26 - (26 - p)) = 32 - p by omega, Nat.div_lt_iff_lt_mul (Nat.two_pow_pos _), ← hpow]
      exact Nat.mod_lt _ (by norm_num)
    · rw [if_neg (fun h => hodd ((and_one_iff c).2 h))]
      exact hlz

theorem rankKept {p c : Nat} (h : RankFits p c) : RankKept p c := fun h1 => Or.inl (h h1)

theorem goodCode_rankFits {p c : Nat} (hp1 : 4 ≤ p) (h : GoodCode p c) : RankFits p c := by
  intro h1
  rw [GoodCode, if_pos h1] at h
  omega

/-- What is needed of a rank: it is not 64, and above 64 only if it does not belong to the last register
or `Q` holds. -/
def RankQ (Q : Nat → Prop) (p c : Nat) : Prop :=
  c % 2 = 1 → c / 2 % 64 + (25 - p) < 64 ∨
    (64 < c / 2 % 64 + (25 - p) ∧ (c / 2 ^ (32 - p) + 1 < 2 ^ p ∨ Q p))

theorem RankKept.rankQ {Q : Nat → Prop} {p c : Nat} (h : RankKept p c) : RankQ Q p c :=
  fun h1 => (h h1).imp id fun h => ⟨h.1, Or.inl h.2⟩

theorem rankAllowed {m p c : Nat} (h : RankKept p c) : RankAllowed m p c :=
  fun h1 => (h h1).imp id fun h => ⟨h.1, Or.inl h.2⟩

/-- Where `Q` holds the iterators do not go beyond the registers. -/
def QDense (Q : Nat → Prop) (p : Nat) (r : Registers) : Prop := UsableDense p r ∧ (Q p → r.count ≤ 2 ^ p)

theorem closed_Q {cfg : Cfg} (ho : cfg.overflowChecks = true) (Q : Nat → Prop) : Closed cfg (QDense Q) where
  good p r h := ⟨usable_of_good h, fun _ => h.1.le⟩
  set p r i v h hz hi hv := by
    obtain ⟨r', h1, h2, h3, h4⟩ := (closed_checked ho).set p r i v h.1 hz hi hv
    exact ⟨r', h1, ⟨h2, by rw [h4]; exact h.2⟩, h3, h4⟩
  merge p r r₂ h h₂ hz := by
    obtain ⟨r', h1, h2, h3, h4⟩ := (closed_checked ho).merge p r r₂ h.1 h₂.1 hz
    exact ⟨r', h1, ⟨h2, by rw [h4]; exact h.2⟩, h3, h4⟩

theorem setAny {cfg : Cfg} {Q : Nat → Prop} (ho : cfg.overflowChecks = true) {p : Nat}
    (hp1 : 4 ≤ p) (hp2 : p ≤ 18) : ∀ (L : List U32) (r : Registers), QDense Q p r →
    r.zeros < 2 ^ cfg.usizeBits → (∀ c ∈ L, RankQ Q p c.toNat) →
    ∃ r', Plus.setCodes cfg p L r = .ok r' ∧ QDense Q p r' ∧ r'.zeros < 2 ^ cfg.usizeBits ∧
      r'.count = r.count
  | [], r, hr, hz, _ => ⟨r, rfl, hr, hz, rfl⟩
  | c :: cs, r, hr, hz, hL => by
    obtain ⟨z, i, hz1, hi, hz2, hz3⟩ := decodeHash_any cfg hp1 hp2 c
    have hset : ∃ r1, r.setGreater cfg 6 i z = .ok r1 ∧ QDense Q p r1 ∧ r1.zeros ≤ r.zeros ∧
        r1.count = r.count := by
      have small : z.toNat < 2 ^ 6 → ∃ r1, r.setGreater cfg 6 i z = .ok r1 ∧ QDense Q p r1 ∧
          r1.zeros ≤ r.zeros ∧ r1.count = r.count := by
        intro hv
        obtain ⟨r1, g1, g2, g3, g4⟩ := setGreater_usable ho hr.1 hz hi hv
        exact ⟨r1, g1, ⟨g2, by rw [g4]; exact hr.2⟩, g3, g4⟩
      by_cases hodd : c.toNat % 2 = 1
      · rw [if_pos hodd] at hz3
        rcases hL c (by simp) hodd with h | ⟨h, h'⟩
        · exact small (by rw [hz3.1]; omega)
        · have hv1 : 64 < z.toNat := by rw [hz3.1]; exact h
          have hv2 : z.toNat < 128 := by clear small; rw [hz3.1]; omega
          obtain ⟨r1, g1, g2, g3, g4⟩ := setGreater_usable7 hr.1 hz
            (h'.imp (fun h' => by rw [hz3.2]; exact h') fun h' => ⟨hi, hr.2 h'⟩) hv1 hv2
          exact ⟨r1, g1, ⟨g2, by rw [g4]; exact hr.2⟩, g3, g4⟩
      · rw [if_neg hodd] at hz3
        exact small hz3
    obtain ⟨r1, h1, h2, h3, h4⟩ := hset
    obtain ⟨r', h5, h6, h7, h8⟩ := setAny ho hp1 hp2 cs r1 h2 (by omega) (fun x hx => hL x (by simp [hx]))
    refine ⟨r', ?_, h6, h7, by omega⟩
    rw [Plus.setCodes, hz1, ok_bind]
    simp only
    rw [show SIZE = 6 from rfl, h1, ok_bind, h5]

/-! ## Lists with additional codes -/

theorem withCodes_coe (L : List Nat) (X : Finset Nat) :
    (withCodes L X : Multiset Nat) = (L : Multiset Nat) + (X \ L.toFinset).val := Multiset.sort_eq _ _

theorem withCodes_sorted (L : List Nat) (X : Finset Nat) : (withCodes L X).Pairwise (· ≤ ·) :=
  Multiset.pairwise_sort _ _

theorem eq_withCodes {L M : List Nat} {X : Finset Nat} (hM : M.Pairwise (· ≤ ·))
    (h : (M : Multiset Nat) = (L : Multiset Nat) + (X \ L.toFinset).val) : M = withCodes L X := by
  apply List.Perm.eq_of_pairwise (le := (· ≤ ·)) _ hM (withCodes_sorted L X)
  · rw [← Multiset.coe_eq_coe, withCodes_coe, h]
  · intro a b _ _ h1 h2; omega

theorem length_withCodes (L : List Nat) (X : Finset Nat) :
    (withCodes L X).length = L.length + (X \ L.toFinset).card := by
  have := congrArg Multiset.card (withCodes_coe L X)
  rwa [Multiset.card_add, Multiset.coe_card, Multiset.coe_card] at this

theorem mem_withCodes {L : List Nat} {X : Finset Nat} {c : Nat} : c ∈ withCodes L X ↔ c ∈ L ∨ c ∈ X := by
  rw [← Multiset.mem_coe, withCodes_coe, Multiset.mem_add, Multiset.mem_coe, Finset.mem_val,
    Finset.mem_sdiff, List.mem_toFinset]
  tauto

theorem withCodes_withCodes (L : List Nat) (X Y : Finset Nat) :
    withCodes (withCodes L X) Y = withCodes L (X ∪ Y) := by
  apply eq_withCodes (withCodes_sorted _ _)
  rw [withCodes_coe, withCodes_coe, add_assoc]
  congr 1
  have hd : Disjoint (X \ L.toFinset) (Y \ (withCodes L X).toFinset) := by
    rw [Finset.disjoint_left]
    intro c hc hc'
    rw [Finset.mem_sdiff, List.mem_toFinset, mem_withCodes] at hc'
    rw [Finset.mem_sdiff] at hc
    tauto
  rw [← Finset.disjUnion_val _ _ hd]
  congr 1
  ext c
  simp only [Finset.mem_disjUnion, Finset.mem_sdiff, List.mem_toFinset, mem_withCodes, Finset.mem_union]
  tauto

theorem withCodes_mono {L : List Nat} {X Y : Finset Nat} (h : X ⊆ Y) :
    gapsSize 0 (withCodes L X) ≤ gapsSize 0 (withCodes L Y) := by
  apply gapsSize_sublist
  · apply List.sublist_of_subperm_of_pairwise (r := (· ≤ ·)) _ (withCodes_sorted _ _) (withCodes_sorted _ _)
    rw [← Multiset.coe_le, withCodes_coe, withCodes_coe]
    exact add_le_add_right (Finset.val_le_iff.2 (Finset.sdiff_subset_sdiff h (le_refl _))) _
  · exact List.pairwise_cons.2 ⟨by simp, withCodes_sorted _ _⟩

/-- The temporary set as numbers. -/
def tmpNat (s : Plus I) : Finset Nat := (s.tmpset.map BitVec.toNat).toFinset

theorem mem_map_toNat {L : List U32} {c : U32} : c.toNat ∈ L.map BitVec.toNat ↔ c ∈ L := by
  rw [List.mem_map]
  constructor
  · rintro ⟨a, ha, h⟩; rwa [← BitVec.eq_of_toNat_eq h]
  · exact fun h => ⟨c, h, rfl⟩

theorem nodup_length_le {L : List U32} (h : L.Nodup) : L.length ≤ 2 ^ 32 := by
  have h1 : (L.map BitVec.toNat).Nodup := h.map (fun a b h => BitVec.eq_of_toNat_eq h)
  have h2 : (L.map BitVec.toNat).toFinset ⊆ Finset.range (2 ^ 32) := by
    intro n hn
    rw [List.mem_toFinset, List.mem_map] at hn
    obtain ⟨a, -, rfl⟩ := hn
    exact Finset.mem_range.2 a.isLt
  have h3 := Finset.card_le_card h2
  rwa [List.toFinset_card_of_nodup h1, List.length_map, Finset.card_range] at h3

/-- What `merge_sparse` writes. -/
theorem mergeSparse_list (cfg : Cfg) (ord : IterOrder) {L T : List U32} (hL : L.Pairwise (· ≤ ·))
    (hT : T.Nodup) (hlen : T.length + L.length < 2 ^ cfg.usizeBits) :
    ∃ d L', mergeLoop cfg (sortCodes (ord.apply T)) L DifIntVec.new = .ok d ∧ DifIntVec.Enc d L' ∧
      L'.map BitVec.toNat = withCodes (L.map BitVec.toNat) (T.map BitVec.toNat).toFinset := by
  have hperm := ord.perm T
  have hperm2 := (sortCodes_perm (ord.apply T)).trans hperm
  obtain ⟨d, L', h1, h2, h3⟩ := mergeLoop_perm cfg (sortCodes (ord.apply T)) L DifIntVec.new []
    DifIntVec.enc_new (sortCodes_sorted (hperm.nodup_iff.2 hT)) hL (by simp) (by simp)
    (by rw [hperm2.length_eq]; simpa using hlen)
  refine ⟨d, L', h1, h2, eq_withCodes ?_ ?_⟩
  · rw [List.pairwise_map]
    exact h2.sorted.imp BitVec.le_def.1
  · have h4 := (h3.map BitVec.toNat)
    rw [List.nil_append, List.map_append, ← Multiset.coe_eq_coe, ← Multiset.coe_add] at h4
    rw [h4]
    congr 1
    refine (Multiset.Nodup.ext ?_ (Finset.nodup _)).2 ?_
    · rw [Multiset.coe_nodup]
      exact ((hperm2.nodup_iff.2 hT).filter _).map (fun a b h => BitVec.eq_of_toNat_eq h)
    · intro n
      simp only [Multiset.mem_coe, List.mem_map, List.mem_filter, hperm2.mem_iff, Finset.mem_val,
        Finset.mem_sdiff, List.mem_toFinset, decide_eq_true_eq]
      constructor
      · rintro ⟨a, ⟨h5, h6⟩, rfl⟩
        exact ⟨⟨a, h5, rfl⟩, fun ⟨b, h7, h8⟩ => h6 (by rwa [← BitVec.eq_of_toNat_eq h8])⟩
      · rintro ⟨⟨a, h5, rfl⟩, h6⟩
        exact ⟨a, ⟨h5, fun h7 => h6 ⟨a, h7, rfl⟩⟩, rfl⟩

/-! ## With overflow checks -/

/-- A sparse sketch that can be used: `A` are the codes that occur in the program, `B` bounds the
number of repetitions. -/
structure SKin (cfg : Cfg) (Q : Nat → Prop) (A : Nat → Nat → Prop) (B : Nat) (s : Plus I) (L : List U32) : Prop where
  regs : s.registers = none
  hp1 : 4 ≤ s.precision
  hp2 : s.precision ≤ 18
  typed : Typed cfg.usizeBits s
  read : s.sparse.toList cfg = .ok L
  sorted : L.Pairwise (· ≤ ·)
  nodup : s.tmpset.Nodup
  codes : ∀ c, c ∈ L ∨ c ∈ s.tmpset → A s.precision c.toNat
  m1 : 2 ^ s.precision ≤ s.counts.1
  m2 : s.counts.1 ≤ 5 * ((2 ^ s.precision + 4) / 5)
  mQ : Q s.precision → s.counts.1 ≤ 2 ^ s.precision
  room : ∀ X : Finset Nat, (∀ c ∈ X, A s.precision c) →
    gapsSize 0 (withCodes (L.map BitVec.toNat) (tmpNat s ∪ X)) ≤ s.counts.2.2 →
    (withCodes (L.map BitVec.toNat) (tmpNat s ∪ X)).length ≤ s.counts.2.1
  size : L.length ≤ B + (L.map BitVec.toNat).toFinset.card

def SKin2 (cfg : Cfg) (Q : Nat → Prop) (A : Nat → Nat → Prop) (B : Nat) (s : Plus I) : Prop :=
  (∃ L, SKin cfg Q A B s L) ∨ ∃ r, Dense cfg (QDense Q) s r

theorem card_toNat_le (L : List U32) : (L.map BitVec.toNat).toFinset.card ≤ 2 ^ 32 := by
  have : (L.map BitVec.toNat).toFinset ⊆ Finset.range (2 ^ 32) := by
    intro n hn
    rw [List.mem_toFinset, List.mem_map] at hn
    obtain ⟨a, -, rfl⟩ := hn
    exact Finset.mem_range.2 a.isLt
  simpa using Finset.card_le_card this

variable {cfg : Cfg} {Q : Nat → Prop} {A : Nat → Nat → Prop} {B : Nat}

theorem SKin.length_lt (hcfg : 39 ≤ cfg.usizeBits) (hB : B < 2 ^ (cfg.usizeBits - 1)) {s : Plus I}
    {L : List U32} (h : SKin cfg Q A B s L) : s.tmpset.length + L.length < 2 ^ cfg.usizeBits := by
  have h1 := h.size
  have h2 := card_toNat_le L
  have h3 := nodup_length_le h.nodup
  have h4 : 2 ^ 38 ≤ 2 ^ (cfg.usizeBits - 1) := Nat.pow_le_pow_right (by norm_num) (by omega)
  have h5 : 2 ^ cfg.usizeBits = 2 * 2 ^ (cfg.usizeBits - 1) := by
    rw [← pow_succ']; congr 1; omega
  omega

/-- Adding codes to the temporary set. -/
theorem SKin.tmp {s : Plus I} {L : List U32} (h : SKin cfg Q A B s L) {T : List U32} (hT : T.Nodup)
    (hsub : ∀ c ∈ s.tmpset, c ∈ T) (hA : ∀ c ∈ T, A s.precision c.toNat) :
    SKin cfg Q A B { s with tmpset := T } L where
  regs := h.regs
  hp1 := h.hp1
  hp2 := h.hp2
  typed := ⟨h.typed.prec, h.typed.c1, h.typed.c2, h.typed.c3, h.typed.sparse, h.typed.regs⟩
  read := h.read
  sorted := h.sorted
  nodup := hT
  codes c hc := by
    rcases hc with hc | hc
    exacts [h.codes c (Or.inl hc), hA c hc]
  m1 := h.m1
  m2 := h.m2
  mQ := h.mQ
  room X hX := by
    have h1 : tmpNat { s with tmpset := T } ∪ X = tmpNat s ∪ (tmpNat { s with tmpset := T } ∪ X) := by
      rw [← Finset.union_assoc]
      congr 1
      refine (Finset.union_eq_right.2 ?_).symm
      intro n hn
      simp only [tmpNat, List.mem_toFinset, List.mem_map] at hn ⊢
      obtain ⟨a, ha, rfl⟩ := hn
      exact ⟨a, hsub a ha, rfl⟩
    rw [h1]
    refine h.room _ ?_
    intro n hn
    rcases Finset.mem_union.1 hn with hn | hn
    · simp only [tmpNat, List.mem_toFinset, List.mem_map] at hn
      obtain ⟨a, ha, rfl⟩ := hn
      exact hA a ha
    · exact hX n hn
  size := h.size

theorem zeroFields_le (n : Nat) (f : Nat → Nat) : zeroFields n f ≤ n := by
  unfold zeroFields
  exact (Finset.card_filter_le _ _).trans (by simp)

/-- `sparse_to_normal`. -/
theorem SKin.dense (hcfg : 39 ≤ cfg.usizeBits) (ho : cfg.overflowChecks = true)
    (hA : ∀ p c, A p c → RankQ Q p c) {s : Plus I} {L : List U32} (h : SKin cfg Q A B s L) :
    ∃ s' r, sparseToNormal cfg s = .ok s' ∧ s'.precision = s.precision ∧ Dense cfg (QDense Q) s' r := by
  have hp1 := h.hp1
  have hp2 := h.hp2
  have hm1 := h.m1
  have hm2 := h.m2
  have hS : GoodSize 6 := Or.inr rfl
  obtain ⟨hb1, hb2⟩ := pow_bounds cfg (by omega) hp2
  have hb3 : 2 ^ 39 ≤ 2 ^ cfg.usizeBits := Nat.pow_le_pow_right (by norm_num) hcfg
  have hm3 : s.counts.1 ≤ 2 ^ 18 + 4 := by omega
  obtain ⟨r0, h1, h2⟩ := Registers.rep_withCount cfg hS (n := s.counts.1) (by omega)
  have hz : r0.zeros = s.counts.1 := by rw [h2.zeros_eq]; simp
  have hl : r0.buf.length = (s.counts.1 + 5 - 1) / 5 := h2.len_eq
  have hf0 : ∀ k, fld 6 r0 k = 0 := by
    intro k
    by_cases hk : k < s.counts.1
    · obtain ⟨w, w1, w2⟩ := h2.get_eq k hk
      rw [fld_of_word hS w1, w2]
    · exact h2.clean.fld hS (by omega)
  have hc0 : r0.count = s.counts.1 := h2.count_eq
  have hu : QDense Q s.precision r0 := by
    refine ⟨⟨by omega, ?_, fun j hj hj2 => ⟨by omega, hf0 j⟩⟩, fun hq => by rw [hc0]; exact h.mQ hq⟩
    rw [usable_zeros]
    have := zeroFields_le (2 ^ s.precision) (fld 6 r0)
    omega
  obtain ⟨r, h3, h4, h5, h6⟩ := setAny ho hp1 hp2 L r0 hu (by omega)
    (fun c hc => hA _ _ (h.codes c (Or.inl hc)))
  have hc : r0.count = s.counts.1 := h2.count_eq
  refine ⟨{ s with registers := some r, tmpset := [], sparse := s.sparse.clear }, r, ?_, rfl, rfl, hp1, hp2,
    ⟨_, mulUsize_ok cfg ?_⟩, ⟨h.typed.prec, h.typed.c1, h.typed.c2, h.typed.c3, ?_, ?_⟩, h4⟩
  · rw [sparseToNormal, show SIZE = 6 from rfl, h1, ok_bind, h.read, ok_bind, h3]
    rfl
  · have := Nat.mul_le_mul hm3 hm3
    simp only
    omega
  · simp only [DifIntVec.clear]; omega
  · intro r' hr'
    cases hr'
    omega

/-- `merge_sparse`. -/
theorem SKin.flush (hcfg : 39 ≤ cfg.usizeBits) (ho : cfg.overflowChecks = true)
    (hB : B < 2 ^ (cfg.usizeBits - 1)) (hA : ∀ p c, A p c → RankQ Q p c) (ord : IterOrder)
    {s : Plus I} {L : List U32} (h : SKin cfg Q A B s L) :
    ∃ s', mergeSparse cfg ord s = .ok s' ∧ s'.precision = s.precision ∧
      ((∃ L', SKin cfg Q A B s' L' ∧ s'.sparse.count ≤ s'.counts.2.1) ∨ ∃ r, Dense cfg (QDense Q) s' r) := by
  have hlen := h.length_lt hcfg hB
  obtain ⟨d, L', h1, h2, h3⟩ := mergeSparse_list cfg ord h.sorted h.nodup hlen
  have hcount : d.count = (withCodes (L.map BitVec.toNat) (tmpNat s)).length := by
    rw [tmpNat, ← h3, List.length_map, h2.count_eq]
  have hcard : (tmpNat s).card ≤ s.tmpset.length := by
    have := List.toFinset_card_le (s.tmpset.map BitVec.toNat)
    rwa [List.length_map] at this
  have hcl : d.count < 2 ^ cfg.usizeBits := by
    rw [hcount, length_withCodes, List.length_map]
    have := Finset.card_le_card (Finset.sdiff_subset (s := tmpNat s) (t := (L.map BitVec.toNat).toFinset))
    omega
  have hK : SKin cfg Q A B { s with sparse := d, tmpset := [] } L' := by
    refine ⟨h.regs, h.hp1, h.hp2, ⟨h.typed.prec, h.typed.c1, h.typed.c2, h.typed.c3, hcl, h.typed.regs⟩,
      h2.toList_eq cfg, h2.sorted, List.nodup_nil, ?_, h.m1, h.m2, h.mQ, ?_, ?_⟩
    · intro c hc
      rcases hc with hc | hc
      · have : c.toNat ∈ withCodes (L.map BitVec.toNat) (s.tmpset.map BitVec.toNat).toFinset := by
          rw [← h3, mem_map_toNat]; exact hc
        rw [mem_withCodes, List.mem_toFinset, mem_map_toNat, mem_map_toNat] at this
        exact h.codes c this
      · cases hc
    · intro X hX
      have h4 : tmpNat ({ s with sparse := d, tmpset := [] } : Plus I) ∪ X = X := by simp [tmpNat]
      rw [h4, h3, withCodes_withCodes]
      exact h.room X hX
    · have h5 : L'.length = L.length + (tmpNat s \ (L.map BitVec.toNat).toFinset).card := by
        rw [← h2.count_eq, hcount, length_withCodes, List.length_map]
      have h6 : (L'.map BitVec.toNat).toFinset.card =
          (L.map BitVec.toNat).toFinset.card + (tmpNat s \ (L.map BitVec.toNat).toFinset).card := by
        rw [← Finset.card_union_of_disjoint Finset.disjoint_sdiff, Finset.union_sdiff_self_eq_union]
        congr 1
        ext n
        rw [h3, List.mem_toFinset, mem_withCodes, Finset.mem_union, List.mem_toFinset, tmpNat, List.mem_toFinset,
          List.mem_toFinset]
      have := h.size
      omega
  have hun : mergeSparse cfg ord s = if d.len > s.counts.2.2 then
      sparseToNormal cfg { s with sparse := d, tmpset := [] }
      else .ok { s with sparse := d, tmpset := [] } := by
    rw [mergeSparse, h.read]
    simp only [ok_bind, h1]
    rfl
  rw [hun]
  split
  · obtain ⟨s', r, h4, h5, h6⟩ := hK.dense hcfg ho hA
    exact ⟨s', h4, h5, Or.inr ⟨r, h6⟩⟩
  · rename_i hle
    refine ⟨_, rfl, rfl, Or.inl ⟨L', hK, ?_⟩⟩
    have h4 := h.room ∅ (by simp)
    rw [Finset.union_empty, tmpNat, ← h3, ← h2.len_eq] at h4
    have := h4 (by omega)
    rw [List.length_map, ← h2.count_eq] at this
    exact this

theorem SKin.maybe (hcfg : 39 ≤ cfg.usizeBits) (ho : cfg.overflowChecks = true)
    (hB : B < 2 ^ (cfg.usizeBits - 1)) (hA : ∀ p c, A p c → RankQ Q p c) (ord : IterOrder)
    {s : Plus I} {L : List U32} (h : SKin cfg Q A B s L) :
    ∃ s', maybeMergeSparse cfg ord s = .ok s' ∧ SKin2 cfg Q A B s' := by
  have h3 := nodup_length_le h.nodup
  have h4 : 2 ^ 39 ≤ 2 ^ cfg.usizeBits := Nat.pow_le_pow_right (by norm_num) hcfg
  rw [maybeMergeSparse, mulUsize_ok cfg (by omega), ok_bind]
  split
  · obtain ⟨s', h1, _, h2⟩ := h.flush hcfg ho hB hA ord
    exact ⟨s', h1, h2.imp (fun ⟨L', h, _⟩ => ⟨L', h⟩) id⟩
  · exact ⟨s, rfl, Or.inl ⟨L, h⟩⟩

theorem skin_new (hcfg : 39 ≤ cfg.usizeBits) {s : Plus I} {p : Nat} (h : Flushed p s ∅) :
    SKin2 cfg Q A B s := by
  have ht := (h.rep.safe cfg (by omega)).typed (by omega)
  obtain ⟨hb, ⟨L, h1, h2, h3⟩ | ⟨r, h1⟩⟩ := h
  swap
  · exact absurd (by simp [fitsSparse, Spec.codes, encSize, gapsSize]) h1.big
  have hp := hb.prec
  subst hp
  have hL : L = [] := by
    rw [List.eq_nil_iff_forall_not_mem]
    intro c hc
    have := (h1.mem c.toNat).2 (Or.inl (List.mem_map_of_mem hc))
    simp [Spec.codes] at this
  subst hL
  refine Or.inl ⟨[], h1.regs, hb.hp1, hb.hp2, ht, h1.enc.toList_eq cfg, List.Pairwise.nil, h1.nodup, ?_, ?_, ?_, ?_, ?_,
    by simp⟩
  · rw [h2]; simp
  · rw [hb.counts]
  · rw [hb.counts]; simp only; omega
  · intro _; rw [hb.counts]
  · intro X _ hle
    rw [hb.counts] at hle ⊢
    have h4 := length_le_gapsSize (withCodes (([] : List U32).map BitVec.toNat) (tmpNat s ∪ X)) 0
    have h5 := capacity_le hb.hp2
    simp only at hle ⊢
    omega

theorem SKin2.insert (hcfg : 39 ≤ cfg.usizeBits) (ho : cfg.overflowChecks = true)
    (hB : B < 2 ^ (cfg.usizeBits - 1)) (hA : ∀ p c, A p c → RankQ Q p c)
    (hG : ∀ p c, 4 ≤ p → GoodCode p c → A p c) (ord : IterOrder) {s : Plus I} (h : SKin2 cfg Q A B s) (x : U64) :
    ∃ s', insertHash cfg ord s x = .ok s' ∧ SKin2 cfg Q A B s' := by
  rcases h with ⟨L, h⟩ | ⟨r, h⟩
  · obtain ⟨c, hc, hcv⟩ := encodeHash_ok cfg h.hp1 h.hp2 x
    rw [insertHash_none cfg ord x h.regs, hc, ok_bind]
    refine (h.tmp (T := hashSetInsert s.tmpset c) (nodup_hashSetInsert h.nodup c)
      (fun a ha => mem_hashSetInsert.2 (Or.inr ha)) ?_).maybe hcfg ho hB hA ord
    intro a ha
    rcases mem_hashSetInsert.1 ha with rfl | ha
    · exact hG _ _ h.hp1 ((goodCode_iff _ _).2 ⟨x.toNat, x.isLt, hcv.symm⟩)
    · exact h.codes a (Or.inr ha)
  · obtain ⟨s', h1, h2⟩ := Kin.insert (by omega) (closed_Q ho Q) ord (Or.inr ⟨r, h⟩) x
    rcases h2 with ⟨h2, _⟩ | h2
    · obtain ⟨v, hv, he⟩ := insertHash_raw cfg (by omega) ord h.regs h.hp1 h.hp2 x
      rw [he, bind_eq_ok] at h1
      obtain ⟨r', -, h3⟩ := h1
      cases h3
      cases h2
    · exact ⟨s', h1, Or.inr h2⟩

theorem SKin2.merge (hcfg : 39 ≤ cfg.usizeBits) (ho : cfg.overflowChecks = true)
    (hB : B < 2 ^ (cfg.usizeBits - 1)) (hA : ∀ p c, A p c → RankQ Q p c)
    (ordS ordO : IterOrder) {s t : Plus I} (hs : SKin2 cfg Q A B s) (ht : SKin2 cfg Q A B t) :
    ∃ s' x, Plus.merge cfg ordS ordO s t = .ok (s', x) ∧ SKin2 cfg Q A B s' := by
  by_cases hp : s.precision = t.precision
  swap
  · exact ⟨s, _, merge_error cfg ordS ordO hp, hs⟩
  have hprec : ¬ (s.precision ≠ t.precision) := not_not.2 hp
  have hP := closed_Q (cfg := cfg) ho Q
  rcases ht with ⟨Lt, ht⟩ | ⟨rt, ht⟩
  · have hperm := ordO.perm t.tmpset
    rcases hs with ⟨L, hs⟩ | ⟨r, hs⟩
    · obtain ⟨n1, m1, l1⟩ := foldl_hashSetInsert (ordO.apply t.tmpset) s.tmpset hs.nodup
      obtain ⟨n2, m2, l2⟩ := foldl_hashSetInsert Lt _ n1
      obtain ⟨s', h1, h2⟩ := (hs.tmp n2 (fun c hc => (m2 c).2 (Or.inl ((m1 c).2 (Or.inl hc)))) (by
        intro c hc
        rw [m2, m1, hperm.mem_iff] at hc
        rcases hc with (hc | hc) | hc
        · exact hs.codes c (Or.inr hc)
        · rw [hp]; exact ht.codes c (Or.inr hc)
        · rw [hp]; exact ht.codes c (Or.inl hc))).maybe hcfg ho hB hA ordS
      refine ⟨s', .ok (), ?_, h2⟩
      rw [merge_none_none cfg ordS ordO hprec hs.regs ht.regs, ht.read, ok_bind, h1]
      rfl
    · obtain ⟨hc, hz⟩ := hs.typed.regs r hs.regs
      have hu := hs.usable
      rw [hp] at hu
      obtain ⟨r1, h1, h2, h3, h4⟩ := setAny ho ht.hp1 ht.hp2 (ordO.apply t.tmpset) r hu hz
        (fun c hc => hA _ _ (ht.codes c (Or.inr (hperm.mem_iff.1 hc))))
      obtain ⟨r2, h5, h6, h7, h8⟩ := setAny ho ht.hp1 ht.hp2 Lt r1 h2 h3
        (fun c hc => hA _ _ (ht.codes c (Or.inl hc)))
      refine ⟨{ s with registers := some r2 }, .ok (), ?_,
        Or.inr ⟨r2, hs.setRegs (by rw [hp]; exact h6) ⟨by omega, h7⟩⟩⟩
      rw [Plus.merge, if_neg hprec, ht.regs, hs.regs]
      simp only
      rw [h1, ok_bind, ht.read, ok_bind, h5]
      rfl
  · have hd : ∃ s1 r1, toDense cfg ordS s = .ok s1 ∧ s1.precision = s.precision ∧
        Dense cfg (QDense Q) s1 r1 := by
      rcases hs with ⟨L, hs⟩ | ⟨r, hs⟩
      · obtain ⟨s1, h1, h2, h3⟩ := hs.flush hcfg ho hB hA ordS
        rw [toDense, hs.regs]
        simp only
        rw [h1, ok_bind]
        rcases h3 with ⟨L', h3, _⟩ | ⟨r, h3⟩
        · rw [h3.regs]
          obtain ⟨s2, r2, h4, h5, h6⟩ := h3.dense hcfg ho hA
          exact ⟨s2, r2, h4, h5.trans h2, h6⟩
        · rw [h3.regs]
          exact ⟨s1, r, rfl, h2, h3⟩
      · exact ⟨s, r, by rw [toDense, hs.regs]; rfl, rfl, hs⟩
    obtain ⟨s1, r1, h1, h2, h3⟩ := hd
    obtain ⟨hc, hz⟩ := h3.typed.regs r1 h3.regs
    have hu := ht.usable
    rw [← hp, ← h2] at hu
    obtain ⟨r2, h4, h5, h6, h7⟩ := hP.merge _ r1 rt h3.usable hu hz
    refine ⟨{ s1 with registers := some r2 }, .ok (), ?_, Or.inr ⟨r2, h3.setRegs h5 ⟨by omega, h6⟩⟩⟩
    rw [merge_some cfg ordS ordO hprec ht.regs, h1, ok_bind, h3.regs]
    simp only [unwrap, ok_bind, show SIZE = 6 from rfl]
    rw [Registers.plus_mergeRegs, h4]
    rfl

theorem skin_keeps (hcfg : 39 ≤ cfg.usizeBits) (ho : cfg.overflowChecks = true)
    (hB : B < 2 ^ (cfg.usizeBits - 1)) (hA : ∀ p c, A p c → RankQ Q p c)
    (hG : ∀ p c, 4 ≤ p → GoodCode p c → A p c) (ln : F64 → F64) (c : Serde.Codec I) :
    Keeps (Plus.api cfg ln c) (SKin2 cfg Q A B) where
  new p b := by
    by_cases hp : 4 ≤ p ∧ p ≤ 18
    · obtain ⟨s, h1, h2, _⟩ := new_ok cfg (by omega) hp.1 hp.2 b
      exact ⟨_, h1, fun s' hs => by cases hs; exact skin_new hcfg h2⟩
    · exact ⟨_, new_error cfg (by omega) b, fun s' hs => by cases hs⟩
  insert o k s v h := by
    obtain ⟨s', h1, h2⟩ := h.insert hcfg ho hB hA hG o (s.builder v)
    exact ⟨s', by cases k <;> exact h1, h2⟩
  merge o o' s t hs ht := hs.merge hcfg ho hB hA o o' ht
  count o s h := by
    have key : ∀ (s : Plus I) r, Dense cfg (QDense Q) s r → ∃ x, countNormal cfg ln s.precision s.counts.1 r = .ok x := by
      intro s r h
      obtain ⟨q, hq⟩ := h.sq
      exact countNormal_of_mul cfg (by omega) ln h.hp1 h.hp2 hq r
    rcases h with ⟨L, h⟩ | ⟨r, h⟩
    · obtain ⟨s', h1, h2, h3⟩ := h.flush hcfg ho hB hA o
      rcases h3 with ⟨L', h3, h4⟩ | ⟨r, h3⟩
      · refine ⟨s', Common.linearCount ln s'.counts.2.1 (s'.counts.2.1 - s'.sparse.count), ?_,
          Or.inl ⟨L', h3⟩⟩
        show Plus.count cfg ln o s = _
        unfold Plus.count
        simp only [h.regs, h1, ok_bind, h3.regs]
        rw [subUsize_ok cfg h4 h3.typed.c2, ok_bind]
        rfl
      · obtain ⟨x, hx⟩ := key s' r h3
        refine ⟨s', x, ?_, Or.inr ⟨r, h3⟩⟩
        show Plus.count cfg ln o s = _
        unfold Plus.count
        simp only [h.regs, h1, ok_bind, h3.regs, hx]
        rfl
    · obtain ⟨x, hx⟩ := key s r h
      refine ⟨s, x, ?_, Or.inr ⟨r, h⟩⟩
      show Plus.count cfg ln o s = _
      unfold Plus.count
      simp only [h.regs, pure_eq_ok, ok_bind, hx]
  reload o s h := ⟨_, rfl, fun s' hs => by
    rcases h with ⟨L, h⟩ | ⟨r, h⟩
    · have ht := h.typed
      change Serde.dePlus cfg c (Serde.serPlus c o s) = some s' at hs
      rw [Serde.dePlus_serPlus' cfg o rfl ht.prec ht.c1 ht.c2 ht.c3 ht.sparse ht.regs] at hs
      cases hb : c.de (c.ser s.builder) with
      | none => rw [hb] at hs; cases hs
      | some b =>
        rw [hb] at hs
        simp only [Option.map_some, Option.some.injEq] at hs
        subst hs
        obtain ⟨n1, m1, l1⟩ := foldl_hashSetInsert (o.apply s.tmpset) [] List.nodup_nil
        have hperm := o.perm s.tmpset
        have hK := h.tmp n1 (fun a ha => (m1 a).2 (Or.inr (hperm.mem_iff.2 ha))) (fun a ha => by
          rw [m1, hperm.mem_iff] at ha
          exact h.codes a (Or.inr (by simpa using ha)))
        exact Or.inl ⟨L, hK.regs, hK.hp1, hK.hp2, ⟨ht.prec, ht.c1, ht.c2, ht.c3, ht.sparse, ht.regs⟩,
          hK.read, hK.sorted, hK.nodup, hK.codes, hK.m1, hK.m2, hK.mQ, hK.room, hK.size⟩
    · obtain ⟨b, t, rfl⟩ := h.typed.reload hs
      exact Or.inr ⟨r, h.regs, h.hp1, h.hp2, h.sq, ⟨h.typed.prec, h.typed.c1, h.typed.c2, h.typed.c3,
        h.typed.sparse, h.typed.regs⟩, h.usable⟩⟩

end Plus
end HLL
