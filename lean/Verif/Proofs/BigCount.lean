import Verif.Proofs.SparseNeed
import Verif.SpecUseCount

/-! # Dense sketches from payloads whose `m * m` does not fit in `usize` -/

namespace HLL
open Spec Registers

namespace Plus
variable {I : Type} {cfg : Cfg} {ln : F64 → F64} {c : Serde.Codec I} {ords : Nat → IterOrder × IterOrder}

/-- All values that `zeros` can still take leave `count` with linear counting. -/
def Low (ln : F64 → F64) (p m : Nat) (r : Registers) : Prop :=
  ∀ z, r.zeros ≤ z + zeroFields (2 ^ p) (fld 6 r) → z ≤ r.zeros →
    z ≠ 0 ∧ F64.le (linearAny ln m z) (num (Spec.threshold p)) = true

theorem Low.next {p m : Nat} {r r' : Registers} (h : Low ln p m r) (h1 : r'.zeros ≤ r.zeros)
    (h2 : r'.zeros + zeroFields (2 ^ p) (fld 6 r) = r.zeros + zeroFields (2 ^ p) (fld 6 r')) : Low ln p m r' :=
  fun z hz1 hz2 => h z (by omega) (by omega)

/-- A dense sketch with any number in the place of `m`. -/
structure Big (cfg : Cfg) (ln : F64 → F64) (s : Plus I) (r : Registers) : Prop where
  regs : s.registers = some r
  hp1 : 4 ≤ s.precision
  hp2 : s.precision ≤ 18
  typed : Typed cfg.usizeBits s
  usable : UsableDense s.precision r
  low : Low ln s.precision s.counts.1 r

theorem Big.setRegs {s : Plus I} {r r' : Registers} (h : Big cfg ln s r) (h1 : UsableDense s.precision r')
    (h2 : r'.count < 2 ^ cfg.usizeBits ∧ r'.zeros < 2 ^ cfg.usizeBits) (h3 : Low ln s.precision s.counts.1 r') :
    Big cfg ln { s with registers := some r' } r' :=
  ⟨rfl, h.hp1, h.hp2, ⟨h.typed.prec, h.typed.c1, h.typed.c2, h.typed.c3, h.typed.sparse, by
    intro r hr
    cases hr
    exact h2⟩, h1, h3⟩

/-- The same sketch with other numbers. -/
def noCounts (s : Plus I) : Plus I := { s with counts := (0, 0, 0) }

theorem Big.dense {s : Plus I} {r : Registers} (h : Big cfg ln s r) : Dense cfg UsableDense (noCounts s) r :=
  ⟨h.regs, h.hp1, h.hp2, ⟨0, mulUsize_ok cfg (by simp [noCounts])⟩,
    ⟨h.typed.prec, Nat.two_pow_pos _, Nat.two_pow_pos _, Nat.two_pow_pos _, h.typed.sparse, h.typed.regs⟩, h.usable⟩

def BKin (cfg : Cfg) (ln : F64 → F64) (s : Plus I) : Prop :=
  Kin cfg UsableDense s ∨ ∃ r, Big cfg ln s r

theorem zeroFields_split {n N : Nat} (h : n ≤ N) (f : Nat → Nat) :
    zeroFields N f = zeroFields n f + ((Finset.Ico n N).filter fun j => f j = 0).card := by
  unfold zeroFields
  rw [← Finset.card_union_of_disjoint]
  · congr 1
    rw [← Finset.filter_union]
    congr 1
    ext j
    simp only [Finset.mem_union, Finset.mem_range, Finset.mem_Ico]
    omega
  · refine Finset.disjoint_filter_filter ?_
    rw [Finset.disjoint_left]
    intro j hj hj'
    rw [Finset.mem_range] at hj
    rw [Finset.mem_Ico] at hj'
    omega

theorem Big.insert (hcfg : 36 < cfg.usizeBits) (ho : cfg.overflowChecks = true) (ord : IterOrder) {s : Plus I}
    {r : Registers} (h : Big cfg ln s r) (x : U64) :
    ∃ s', insertHash cfg ord s x = .ok s' ∧ BKin cfg ln s' := by
  obtain ⟨v, hv, he⟩ := insertHash_raw cfg (by omega) ord h.regs h.hp1 h.hp2 x
  have hp1 := h.hp1
  have hp2 := h.hp2
  have hrk := rank_le 64 s.precision x.toNat
  obtain ⟨hc, hz⟩ := h.typed.regs r h.regs
  have hbk := bucket_lt (w := 64) (p := s.precision) (by omega) x.isLt
  have hv6 : v.toNat < 2 ^ 6 := by rw [hv]; omega
  obtain ⟨r', h1, h2, h3, h4⟩ := setGreater_usable ho h.usable hz hbk hv6
  refine ⟨{ s with registers := some r' }, by rw [he, h1]; rfl,
    Or.inr ⟨r', h.setRegs h2 ⟨by omega, by omega⟩ (h.low.next h3 ?_)⟩⟩
  rcases setGreater_cases (Or.inr rfl) cfg ho hz (i := bucket 64 s.precision x.toNat) hv6 with g | g | g
  · rw [g.2] at h1; cases h1
  · rw [g.2.2.2.2] at h1; cases h1
  · obtain ⟨-, r2, e1, -, -, -, -, e6⟩ := g
    rw [h1] at e1
    cases e1
    exact e6 _ hbk

theorem Big.merge (ho : cfg.overflowChecks = true) (ordS ordO : IterOrder)
    {s t : Plus I} {r : Registers} (hs : Big cfg ln s r) (ht : Kin cfg UsableDense t) :
    ∃ s' x, Plus.merge cfg ordS ordO s t = .ok (s', x) ∧ BKin cfg ln s' := by
  have hS : GoodSize 6 := Or.inr rfl
  by_cases hp : s.precision = t.precision
  swap
  · exact ⟨s, _, merge_error cfg ordS ordO hp, Or.inr ⟨r, hs⟩⟩
  have hprec : ¬ (s.precision ≠ t.precision) := not_not.2 hp
  have hP := closed_checked (cfg := cfg) ho
  have hp1 := hs.hp1
  have hp2 := hs.hp2
  obtain ⟨hc, hz⟩ := hs.typed.regs r hs.regs
  rcases ht with ⟨hrt, ht⟩ | ⟨rt, ht⟩
  · obtain ⟨k1, k2, k3, k4⟩ := ht.1
    rw [hrt] at k4
    obtain ⟨k4, k5, k6, k7, k8⟩ := k4
    obtain ⟨L, e1, e2, e3⟩ := goodSparse_iff.1 k4
    have hperm := ordO.perm t.tmpset
    have hu := hs.usable
    rw [hp] at hu
    have hT : ∀ c ∈ ordO.apply t.tmpset, GoodCode t.precision c.toNat := fun c hc => k7 c (hperm.mem_iff.1 hc)
    obtain ⟨r1, h1, h2, h3, h4⟩ := hP.setCodes k1 k2 (ordO.apply t.tmpset) r hu hz hT
    obtain ⟨r2, h5, h6, h7, h8⟩ := hP.setCodes k1 k2 L r1 h2 h3 e3
    obtain ⟨-, -, a1, a2⟩ := setCodes_inv ho k1 k2 _ _ _ (fun k hk => goodCode_rankFits k1 (hT k hk)) hz h1
    obtain ⟨-, -, b1, b2⟩ := setCodes_inv ho k1 k2 _ _ _ (fun k hk => goodCode_rankFits k1 (e3 k hk)) h3 h5
    refine ⟨{ s with registers := some r2 }, .ok (), ?_,
      Or.inr ⟨r2, hs.setRegs (by rw [hp]; exact h6) ⟨by omega, h7⟩ (hs.low.next (by omega) ?_)⟩⟩
    · rw [Plus.merge, if_neg hprec, hrt, hs.regs]
      simp only
      rw [h1, ok_bind, e1.toList_eq cfg, ok_bind, h5]
      rfl
    · rw [hp]; omega
  · have hu := ht.usable
    rw [← hp] at hu
    obtain ⟨r2, h4, h5, h6, h7⟩ := hP.merge _ r rt hs.usable hu hz
    obtain ⟨q1, q2, q3, q4, q5, q6⟩ := mergeFrom_inv hS cfg ho _ _ _ _ hz (iter_lt hS _) h4
    refine ⟨{ s with registers := some r2 }, .ok (), ?_,
      Or.inr ⟨r2, hs.setRegs h5 ⟨by omega, h6⟩ (hs.low.next q3 ?_)⟩⟩
    · rw [merge_some cfg ordS ordO hprec ht.regs, toDense, hs.regs]
      simp only [pure_eq_ok, ok_bind, hs.regs]
      simp only [unwrap, ok_bind, show SIZE = 6 from rfl]
      rw [Registers.plus_mergeRegs, h4]
      rfl
    · -- the fields in excess stay
      obtain ⟨N, hN⟩ : ∃ N, N = max (2 ^ s.precision) (rt.iter 6).length := ⟨_, rfl⟩
      have hsame : ∀ j, 2 ^ s.precision ≤ j → fld 6 r2 j = fld 6 r j := by
        have hw : perWord 6 = 5 := rfl
        have u4 := hs.usable.1
        have u5 := hs.usable.2.1
        rw [usable_zeros] at u5
        obtain ⟨r', e1, -, -, -, -, e6⟩ := mergeFrom_raw hS cfg ho (2 ^ s.precision) (rt.iter 6) 0 r hz u5 (by
          intro k hk
          rw [getElem_iter hS _ hk, Nat.zero_add]
          rw [length_iter, hw] at hk
          by_cases hk2 : k < 2 ^ s.precision
          · exact ⟨by rw [hw]; omega, fld_lt _ _, Or.inl hk2⟩
          · obtain ⟨c1, c2⟩ := hu.2.2 k hk (by omega)
            have c2 : fld 6 rt k = 0 := c2
            exact ⟨by rw [hw]; omega, fld_lt _ _, Or.inr (by omega)⟩)
        rw [h4] at e1
        cases e1
        exact e6
      have := q6 N (by omega)
      have s1 := zeroFields_split (n := 2 ^ s.precision) (N := N) (by omega) (fld 6 r)
      have s2 := zeroFields_split (n := 2 ^ s.precision) (N := N) (by omega) (fld 6 r2)
      have s3 : ((Finset.Ico (2 ^ s.precision) N).filter fun j => fld 6 r2 j = 0) =
          (Finset.Ico (2 ^ s.precision) N).filter fun j => fld 6 r j = 0 := by
        apply Finset.filter_congr
        intro j hj
        rw [hsame j (Finset.mem_Ico.1 hj).1]
      rw [s3] at s2
      omega

theorem bkin_keeps (hcfg : 36 < cfg.usizeBits) (ho : cfg.overflowChecks = true) (c : Serde.Codec I) :
    Keeps (Plus.api cfg ln c) (BKin cfg ln) where
  new p b := by
    obtain ⟨r, h1, h2⟩ := (kin_keeps hcfg (closed_checked ho) ln c).new p b
    exact ⟨r, h1, fun s hs => Or.inl (h2 s hs)⟩
  insert o k s v h := by
    rcases h with h | ⟨r, h⟩
    · obtain ⟨s', h1, h2⟩ := (kin_keeps hcfg (closed_checked ho) ln c).insert o k s v h
      exact ⟨s', h1, Or.inl h2⟩
    · obtain ⟨s', h1, h2⟩ := h.insert hcfg ho o (s.builder v)
      exact ⟨s', by cases k <;> exact h1, h2⟩
  merge o o' s t hs ht := by
    obtain ⟨t0, ht0, he⟩ : ∃ t0, Kin cfg UsableDense t0 ∧
        Plus.merge cfg o o' s t = Plus.merge cfg o o' s t0 := by
      rcases ht with ht | ⟨r, ht⟩
      · exact ⟨t, ht, rfl⟩
      · exact ⟨noCounts t, Or.inr ⟨r, ht.dense⟩, rfl⟩
    show ∃ s' x, Plus.merge cfg o o' s t = .ok (s', x) ∧ BKin cfg ln s'
    rw [he]
    rcases hs with hs | ⟨r, hs⟩
    · obtain ⟨s', x, h1, h2⟩ := hs.merge hcfg (closed_checked ho) o o' ht0
      exact ⟨s', x, h1, Or.inl h2⟩
    · exact hs.merge ho o o' ht0
  count o s h := by
    rcases h with h | ⟨r, h⟩
    · obtain ⟨s', x, h1, h2⟩ := (kin_keeps hcfg (closed_checked ho) ln c).count o s h
      exact ⟨s', x, h1, Or.inl h2⟩
    · obtain ⟨hz, hle⟩ := h.low r.zeros (by omega) le_rfl
      refine ⟨s, linearAny ln s.counts.1 r.zeros, ?_, Or.inr ⟨r, h⟩⟩
      show Plus.count cfg ln o s = _
      unfold Plus.count
      simp only [h.regs, pure_eq_ok, ok_bind]
      rw [countNormal, threshold_ok h.hp1 h.hp2]
      simp only [ok_bind]
      have hl : linearAny ln s.counts.1 r.zeros = Common.linearCount ln s.counts.1 r.zeros := rfl
      rw [hl] at hle ⊢
      rw [if_pos hz, if_pos hle]
      rfl
  reload o s h := ⟨_, rfl, fun s' hs => by
    rcases h with h | ⟨r, h⟩
    · obtain ⟨x, h1, h2⟩ := (kin_keeps hcfg (closed_checked ho) ln c).reload o s h
      cases h1
      exact Or.inl (h2 s' hs)
    · obtain ⟨b, t, rfl⟩ := h.typed.reload hs
      exact Or.inr ⟨r, h.regs, h.hp1, h.hp2, ⟨h.typed.prec, h.typed.c1, h.typed.c2, h.typed.c3,
        h.typed.sparse, h.typed.regs⟩, h.usable, h.low⟩⟩

/-! ## Necessity -/

theorem mulUsize_inv (ho : cfg.overflowChecks = true) {a b x : Nat} (h : mulUsize cfg a b = .ok x) :
    a * b < 2 ^ cfg.usizeBits := by
  unfold mulUsize ck at h
  split at h
  · rename_i hc
    have := hc.2
    exact_mod_cast this
  · cases h

theorem correctedRaw_inv (ho : cfg.overflowChecks = true) {p m : Nat} {r : Registers} {x : F64}
    (h : correctedRaw cfg p m r = .ok x) : m * m < 2 ^ cfg.usizeBits := by
  unfold correctedRaw Common.estimateRawPlus Common.finishRaw at h
  rw [bind_eq_ok] at h
  obtain ⟨y, h, -⟩ := h
  rw [bind_eq_ok] at h
  obtain ⟨ts, -, h⟩ := h
  rw [bind_eq_ok] at h
  obtain ⟨c2, h, -⟩ := h
  exact mulUsize_inv (cfg := { cfg with std := true }) ho h

theorem count_linear (ho : cfg.overflowChecks = true) {ord : IterOrder} {s s' : Plus I} {r : Registers} {x : F64}
    (hr : s.registers = some r) (hp1 : 4 ≤ s.precision) (hp2 : s.precision ≤ 18)
    (hm : ¬ s.counts.1 * s.counts.1 < 2 ^ cfg.usizeBits) (h : Plus.count cfg ln ord s = .ok (s', x)) :
    r.zeros ≠ 0 ∧ F64.le (linearAny ln s.counts.1 r.zeros) (num (Spec.threshold s.precision)) = true := by
  have hl : linearAny ln s.counts.1 r.zeros = Common.linearCount ln s.counts.1 r.zeros := rfl
  unfold Plus.count at h
  simp only [hr, pure_eq_ok, ok_bind] at h
  rw [bind_eq_ok] at h
  obtain ⟨y, h, -⟩ := h
  rw [countNormal] at h
  simp only [threshold_ok hp1 hp2, ok_bind] at h
  by_cases hz : r.zeros ≠ 0
  · rw [if_pos hz] at h
    by_cases hle : F64.le (Common.linearCount ln s.counts.1 r.zeros) (num (Spec.threshold s.precision)) = true
    · exact ⟨hz, by rw [hl]; exact hle⟩
    · rw [if_neg hle] at h
      exact absurd (correctedRaw_inv ho h) hm
  · rw [if_neg hz] at h
    exact absurd (correctedRaw_inv ho h) hm

theorem steps_down {g : Nat → Nat} {d : Nat} : ∀ n, g n ≤ d → d ≤ g 0 → (∀ k < n, g k ≤ g (k + 1) + 1) →
    ∃ k ≤ n, g k = d
  | 0, h1, h2, _ => ⟨0, le_rfl, by omega⟩
  | n + 1, h1, h2, h3 => by
    by_cases h : g n ≤ d
    · obtain ⟨k, hk, e⟩ := steps_down n h h2 fun k hk => h3 k (by omega)
      exact ⟨k, by omega, e⟩
    · have := h3 n (by omega)
      exact ⟨n + 1, le_rfl, by omega⟩

theorem never_low (hcfg : 32 ≤ cfg.usizeBits) (ho : cfg.overflowChecks = true) {st : List (Plus I)}
    {i : Nat} {s : Plus I} {r : Registers} (ht : Typed cfg.usizeBits s) (hb : Function.Surjective s.builder)
    (hr : s.registers = some r) (hp1 : 4 ≤ s.precision) (hp2 : s.precision ≤ 18)
    (hm : ¬ s.counts.1 * s.counts.1 < 2 ^ cfg.usizeBits)
    (h : Never (Plus.api cfg ln c) ords st) (hi : st[i]? = some s) : Low ln s.precision s.counts.1 r := by
  intro z hz1 hz2
  obtain ⟨-, hrz⟩ := ht.regs r hr
  have hil : i < st.length := (List.getElem?_eq_some_iff.1 hi).1
  -- the registers that are left once the first `k` have been used
  let g : Nat → Nat := fun k => ((Finset.Ico k (2 ^ s.precision)).filter fun j => fld 6 r j = 0).card
  have hg0 : g 0 = zeroFields (2 ^ s.precision) (fld 6 r) := by
    simp only [g, zeroFields, Finset.range_eq_Ico]
  have hgn : g (2 ^ s.precision) = 0 := by simp [g]
  have hgs : ∀ k < 2 ^ s.precision, g k ≤ g (k + 1) + 1 := by
    intro k hk
    simp only [g]
    have hI : Finset.Ico k (2 ^ s.precision) = Insert.insert k (Finset.Ico (k + 1) (2 ^ s.precision)) := by
      ext j
      simp only [Finset.mem_insert, Finset.mem_Ico]
      omega
    rw [hI, Finset.filter_insert]
    split
    · exact Finset.card_insert_le _ _
    · omega
  obtain ⟨k, hk, he⟩ := steps_down (g := g) (d := z + zeroFields (2 ^ s.precision) (fld 6 r) - r.zeros)
    (2 ^ s.precision) (by omega) (by omega) hgs
  obtain ⟨r', h1, h2, h3, h4, h7, h8⟩ := fill hcfg ho h hi hr hrz hp1 hp2 hb k hk
  have hz' : zeroFields (2 ^ s.precision) (fld 6 r') = g k := by
    simp only [g, zeroFields]
    congr 1
    ext j
    simp only [Finset.mem_filter, Finset.mem_range, Finset.mem_Ico]
    constructor
    · rintro ⟨a, b⟩
      have hkj : k ≤ j := by
        by_contra hcon
        exact (h4 j (by omega)).1 b
      exact ⟨⟨hkj, a⟩, by rw [← h8 j hkj]; exact b⟩
    · rintro ⟨⟨a, a'⟩, b⟩
      exact ⟨a', by rw [h8 j a]; exact b⟩
  have := h7 _ le_rfl
  have hzz : r'.zeros = z := by omega
  obtain ⟨ord, s', x, e1, -⟩ := never_count h1 (i := i) (s := { s with registers := some r' })
    (List.getElem?_set_self hil)
  have := count_linear ho (s := { s with registers := some r' }) rfl hp1 hp2 hm e1
  rw [hzz] at this
  exact this

end Plus
end HLL
