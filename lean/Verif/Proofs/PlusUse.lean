import Verif.Proofs.PFUse

/-! # When no program panics on a given dense `HyperLogLogPlus` -/

namespace HLL
open Spec Registers

/-- Registers without stray bits have zeros in the extra fields. -/
theorem Registers.Clean.fld {S n : Nat} (hS : GoodSize S) {r : Registers} (h : Clean S n r) {j : Nat}
    (hj : n ≤ j) : Registers.fld S r j = 0 := by
  have hc := perWord_pos hS
  have hS0 : 0 < S := by rcases hS with rfl | rfl <;> norm_num
  by_cases hlt : j / perWord S < r.buf.length
  swap
  · exact fld_beyond (by omega)
  rw [fld_of_word hS (List.getElem?_eq_getElem hlt)]
  have : lane S r.buf[j / perWord S] (j % perWord S) = 0#32 := by
    apply BitVec.eq_of_getLsbD_eq
    intro b hb
    rw [getLsbD_lane hS, BitVec.getLsbD_zero]
    by_contra hne
    rw [Bool.not_eq_false, Bool.and_eq_true, decide_eq_true_eq] at hne
    obtain ⟨h1, h2⟩ := hne
    have h3 := (h _ _ (List.getElem?_eq_getElem hlt) _ h2).2
    have h4 : (j % perWord S * S + b) / S = j % perWord S := by
      rw [Nat.div_eq_iff hS0]
      omega
    rw [h4, Nat.mul_comm, Nat.div_add_mod] at h3
    omega
  rw [this]
  rfl

namespace Plus
variable {I : Type}

/-- The bounds given by the types of the fields. -/
structure Typed (W : Nat) (s : Plus I) : Prop where
  prec : s.precision < 256
  c1 : s.counts.1 < 2 ^ W
  c2 : s.counts.2.1 < 2 ^ W
  c3 : s.counts.2.2 < 2 ^ W
  sparse : s.sparse.count < 2 ^ W
  regs : ∀ r, s.registers = some r → r.count < 2 ^ W ∧ r.zeros < 2 ^ W

theorem Typed.reload {cfg : Cfg} {c : Serde.Codec I} {ord : IterOrder} {s s' : Plus I}
    (h : Typed cfg.usizeBits s) (he : Serde.dePlus cfg c (Serde.serPlus c ord s) = some s') :
    ∃ b t, s' = { s with builder := b, tmpset := t } := by
  rw [Serde.dePlus_serPlus' cfg ord rfl h.prec h.c1 h.c2 h.c3 h.sparse h.regs] at he
  cases hb : c.de (c.ser s.builder) with
  | none => rw [hb] at he; cases he
  | some b =>
    rw [hb] at he
    simp only [Option.map_some, Option.some.injEq] at he
    exact ⟨b, _, he.symm⟩

/-- What `insert` does to a dense sketch. -/
theorem insertHash_raw (cfg : Cfg) (hcfg : 32 ≤ cfg.usizeBits) (ord : IterOrder) {s : Plus I}
    {r : Registers} (hr : s.registers = some r) (hp1 : 4 ≤ s.precision) (hp2 : s.precision ≤ 18) (x : U64) :
    ∃ v : U32, v.toNat = rank 64 s.precision x.toNat ∧
      insertHash cfg ord s x = (do
        let r ← r.setGreater cfg 6 (bucket 64 s.precision x.toNat) v
        pure { s with registers := some r }) := by
  have hlz := leadingZeros_guard x (p := s.precision) (by omega) (by omega)
  have hrk := rank_le 64 s.precision x.toNat
  obtain ⟨hb1, hb2⟩ := pow_bounds cfg hcfg hp2
  have hbl := bucket_lt (w := 64) (p := s.precision) (by omega) x.isLt
  refine ⟨BitVec.ofNat 32 (1 + leadingZeros (x <<< s.precision ||| 1#64 <<< (s.precision - 1))), ?_, ?_⟩
  · rw [hlz, BitVec.toNat_ofNat]
    exact Nat.mod_eq_of_lt (by unfold rank at hrk; omega)
  · rw [insertHash, hr]
    simp only
    rw [subU8_ok cfg (by omega) (by norm_num), ok_bind, shr_ok cfg x (by omega), ok_bind,
      shl_ok cfg x (by omega), ok_bind, subU8_ok cfg (by omega) (by omega), ok_bind,
      shl_ok cfg _ (by omega), ok_bind]
    simp only [show SIZE = 6 from rfl]
    rw [BitVec.toNat_ushiftRight, Nat.shiftRight_eq_div_pow]
    change (do
      let registers ← r.setGreater cfg 6 (bucket 64 s.precision x.toNat % 2 ^ cfg.usizeBits) _
      _ : R (Plus I)) = _
    rw [Nat.mod_eq_of_lt (by omega)]

/-- `count` succeeds on a dense sketch if the square of `m` can be computed. -/
theorem countNormal_of_mul (cfg : Cfg) (hcfg : 32 ≤ cfg.usizeBits) (ln : F64 → F64) {p m : Nat}
    (hp1 : 4 ≤ p) (hp2 : p ≤ 18) {q : Nat} (hm : mulUsize cfg m m = .ok q) (r : Registers) :
    ∃ c, countNormal cfg ln p m r = .ok c := by
  have hraw : ∃ c, correctedRaw cfg p m r = .ok c := by
    have hts : ∃ ts, Common.terms { cfg with std := true } (r.iter 6) = .ok ts :=
      ⟨_, terms_ok { cfg with std := true } (fun v hv => iter_lt (Or.inr rfl) r v hv)⟩
    obtain ⟨ts, hts⟩ := hts
    rw [correctedRaw, show SIZE = 6 from rfl, Common.estimateRawPlus, hts, ok_bind, Common.finishRaw,
      show mulUsize { cfg with std := true } m m = mulUsize cfg m m from rfl, hm]
    simp only [ok_bind, pure_eq_ok]
    split
    · rename_i hle
      rw [estimateBias_eq cfg hcfg hp1 hp2 (F64.ne_nan_of_le hle).1]
      exact ⟨_, rfl⟩
    · exact ⟨_, rfl⟩
  rw [countNormal, threshold_ok hp1 hp2]
  simp only [ok_bind]
  split
  · split
    · exact ⟨_, rfl⟩
    · exact hraw
  · exact hraw

/-! ## With overflow checks -/

theorem usable_zeros (p : Nat) (r : Registers) :
    ((List.range (2 ^ p)).map (packed 6 (r.buf.map BitVec.toNat))).count 0 =
      zeroFields (2 ^ p) (fld 6 r) := count_zero_eq_card _ _

/-- Replacing the registers by ones with the same extra fields. -/
theorem _root_.HLL.Spec.UsableDense.setRegs {p : Nat} {r r' : Registers} (h : UsableDense p r)
    (h1 : r'.buf.length = r.buf.length) (h2 : r'.count = r.count)
    (h4 : zeroFields (2 ^ p) (fld 6 r') ≤ r'.zeros)
    (h5 : ∀ j, 2 ^ p ≤ j → fld 6 r' j = fld 6 r j) : UsableDense p r' := by
  obtain ⟨u4, u5, u6⟩ := h
  refine ⟨by rw [h1]; exact u4, by rw [usable_zeros]; exact h4, fun j hj hj2 => ?_⟩
  rw [h1, h2] at hj
  obtain ⟨g1, g2⟩ := u6 j hj hj2
  exact ⟨g1, by rw [← g2]; exact h5 j hj2⟩

theorem usable_of_good {p : Nat} {r : Registers} (h : GoodRegs 6 (2 ^ p) r) : UsableDense p r := by
  obtain ⟨k1, k2, k3⟩ := h
  have k2 : r.buf.length = (2 ^ p + 5 - 1) / 5 := k2
  exact ⟨by omega, by rw [k3], fun j hj hj2 => by omega⟩

theorem setGreater_usable {cfg : Cfg} (ho : cfg.overflowChecks = true) {p : Nat} {r : Registers}
    (h : UsableDense p r) (hz : r.zeros < 2 ^ cfg.usizeBits) {i : Nat} (hi : i < 2 ^ p) {v : U32}
    (hv : v.toNat < 2 ^ 6) :
    ∃ r', r.setGreater cfg 6 i v = .ok r' ∧ UsableDense p r' ∧ r'.zeros ≤ r.zeros ∧ r'.count = r.count := by
  have hS : GoodSize 6 := Or.inr rfl
  have u4 := h.1
  have u5 := h.2.1
  rw [usable_zeros] at u5
  rcases setGreater_cases hS cfg ho hz (i := i) (v := v) hv with g | g | g
  · exfalso
    have h1 : perWord 6 = 5 := rfl
    rw [h1] at g
    omega
  · exfalso
    have : 0 < zeroFields (2 ^ p) (fld 6 r) := Finset.card_pos.2 ⟨i, by simp [hi, g.2.1]⟩
    omega
  · obtain ⟨_, r', e1, e2, e3, e4, e5, e6⟩ := g
    refine ⟨r', e1, h.setRegs e2 e3 ?_ ?_, e5, e3⟩
    · have := e6 _ hi
      omega
    · intro j hj
      rw [e4, Function.update_of_ne (by omega)]

/-- A dense sketch that can be used. -/
structure Dense (cfg : Cfg) (P : Nat → Registers → Prop) (s : Plus I) (r : Registers) : Prop where
  regs : s.registers = some r
  hp1 : 4 ≤ s.precision
  hp2 : s.precision ≤ 18
  sq : ∃ q, mulUsize cfg s.counts.1 s.counts.1 = .ok q
  typed : Typed cfg.usizeBits s
  usable : P s.precision r

/-- The sketches of a program that starts with usable dense sketches: these and well-formed ones. -/
def Kin (cfg : Cfg) (P : Nat → Registers → Prop) (s : Plus I) : Prop :=
  (s.registers = none ∧ Safe cfg s) ∨ ∃ r, Dense cfg P s r

theorem Dense.setRegs {cfg : Cfg} {P : Nat → Registers → Prop} {s : Plus I} {r r' : Registers}
    (h : Dense cfg P s r) (h1 : P s.precision r')
    (h2 : r'.count < 2 ^ cfg.usizeBits ∧ r'.zeros < 2 ^ cfg.usizeBits) :
    Dense cfg P { s with registers := some r' } r' :=
  ⟨rfl, h.hp1, h.hp2, h.sq, ⟨h.typed.prec, h.typed.c1, h.typed.c2, h.typed.c3, h.typed.sparse, by
    intro r hr
    cases hr
    exact h2⟩, h1⟩

theorem Safe.typed {cfg : Cfg} (hcfg : 32 ≤ cfg.usizeBits) {s : Plus I} (h : Safe cfg s) :
    Typed cfg.usizeBits s := by
  obtain ⟨⟨h1, h2, h3, h4⟩, h5⟩ := h
  obtain ⟨hb1, hb2⟩ := pow_bounds cfg hcfg h2
  have hcap := capacity_le h2
  refine ⟨by omega, by rw [h3]; simp only; omega, by rw [h3]; simp only; omega,
    by rw [h3]; simp only; omega, h5, ?_⟩
  intro r hr
  rw [hr] at h4
  have hz : r.zeros ≤ 2 ^ s.precision := (goodRegs_rep (Or.inr rfl) h4).zeros_le
  rw [h4.1]
  omega

theorem Safe.kin {cfg : Cfg} (hcfg : 36 < cfg.usizeBits) {P : Nat → Registers → Prop}
    (hP : ∀ p r, GoodRegs 6 (2 ^ p) r → P p r) {s : Plus I} (h : Safe cfg s) : Kin cfg P s := by
  cases hr : s.registers with
  | none => exact Or.inl ⟨hr, h⟩
  | some r =>
    refine Or.inr ⟨r, hr, h.1.1, h.1.2.1, ?_, h.typed (by omega), hP _ _ ?_⟩
    · refine ⟨_, mulUsize_ok cfg ?_⟩
      rw [h.1.2.2.1]
      have h18 : 2 ^ s.precision ≤ 2 ^ 18 := Nat.pow_le_pow_right (by norm_num) h.1.2.1
      have hm : 2 ^ s.precision * 2 ^ s.precision ≤ 2 ^ 18 * 2 ^ 18 := Nat.mul_le_mul h18 h18
      have hW : 2 ^ 36 < 2 ^ cfg.usizeBits := Nat.pow_lt_pow_right (by norm_num) hcfg
      simp only
      omega
    · have := h.1.2.2.2
      rw [hr] at this
      exact this

/-- What is needed of the condition on the registers. -/
structure Closed (cfg : Cfg) (P : Nat → Registers → Prop) : Prop where
  good : ∀ p r, GoodRegs 6 (2 ^ p) r → P p r
  set : ∀ p r i (v : U32), P p r → r.zeros < 2 ^ cfg.usizeBits → i < 2 ^ p → v.toNat < 2 ^ 6 →
    ∃ r', r.setGreater cfg 6 i v = .ok r' ∧ P p r' ∧ r'.zeros < 2 ^ cfg.usizeBits ∧ r'.count = r.count
  merge : ∀ p r r₂, P p r → P p r₂ → r.zeros < 2 ^ cfg.usizeBits →
    ∃ r', mergeFrom cfg 6 0 (r₂.iter 6) r = .ok r' ∧ P p r' ∧ r'.zeros < 2 ^ cfg.usizeBits ∧
      r'.count = r.count

theorem Closed.setCodes {cfg : Cfg} {P : Nat → Registers → Prop} (hP : Closed cfg P) {p : Nat}
    (hp1 : 4 ≤ p) (hp2 : p ≤ 18) : ∀ (L : List U32) (r : Registers), P p r →
    r.zeros < 2 ^ cfg.usizeBits → (∀ c ∈ L, GoodCode p c.toNat) →
    ∃ r', Plus.setCodes cfg p L r = .ok r' ∧ P p r' ∧ r'.zeros < 2 ^ cfg.usizeBits ∧ r'.count = r.count
  | [], r, hr, hz, _ => ⟨r, rfl, hr, hz, rfl⟩
  | c :: cs, r, hr, hz, hL => by
    obtain ⟨h, hh, hc⟩ := (goodCode_iff p c.toNat).1 (hL c (by simp))
    obtain ⟨z, hz1, hz2⟩ := decodeHash_ok cfg hp1 hp2 hh hc.symm
    have hrk := rank_le 64 p h
    obtain ⟨r1, h1, h2, h3, h4⟩ := hP.set p r _ z hr hz (bucket_lt (w := 64) (p := p) (by omega) hh)
      (by rw [hz2]; omega)
    obtain ⟨r', h5, h6, h7, h8⟩ := hP.setCodes hp1 hp2 cs r1 h2 h3 (fun x hx => hL x (by simp [hx]))
    refine ⟨r', ?_, h6, h7, by omega⟩
    rw [Plus.setCodes, hz1, ok_bind]
    simp only
    rw [show SIZE = 6 from rfl, h1, ok_bind, h5]

theorem Kin.insert {cfg : Cfg} (hcfg : 36 < cfg.usizeBits) {P : Nat → Registers → Prop}
    (hP : Closed cfg P) (ord : IterOrder) {s : Plus I} (h : Kin cfg P s) (x : U64) :
    ∃ s', insertHash cfg ord s x = .ok s' ∧ Kin cfg P s' := by
  rcases h with ⟨_, h⟩ | ⟨r, h⟩
  · obtain ⟨s', h1, h2⟩ := insertHash_safe cfg (by omega) ord h x
    exact ⟨s', h1, h2.kin hcfg hP.good⟩
  · obtain ⟨v, hv, he⟩ := insertHash_raw cfg (by omega) ord h.regs h.hp1 h.hp2 x
    have hp1 := h.hp1
    have hp2 := h.hp2
    have hrk := rank_le 64 s.precision x.toNat
    obtain ⟨hc, hz⟩ := h.typed.regs r h.regs
    obtain ⟨r', h1, h2, h3, h4⟩ := hP.set _ r _ v h.usable hz
      (bucket_lt (w := 64) (p := s.precision) (by omega) x.isLt) (by rw [hv]; omega)
    exact ⟨{ s with registers := some r' }, by rw [he, h1]; rfl,
      Or.inr ⟨r', h.setRegs h2 ⟨by omega, h3⟩⟩⟩

theorem Kin.merge {cfg : Cfg} (hcfg : 36 < cfg.usizeBits) {P : Nat → Registers → Prop}
    (hP : Closed cfg P) (ordS ordO : IterOrder) {s t : Plus I} (hs : Kin cfg P s) (ht : Kin cfg P t) :
    ∃ s' x, Plus.merge cfg ordS ordO s t = .ok (s', x) ∧ Kin cfg P s' := by
  by_cases hp : s.precision = t.precision
  swap
  · exact ⟨s, _, merge_error cfg ordS ordO hp, hs⟩
  have hprec : ¬ (s.precision ≠ t.precision) := not_not.2 hp
  rcases ht with ⟨hrt, ht⟩ | ⟨rt, ht⟩
  · rcases hs with ⟨hrs, hs⟩ | ⟨r, hs⟩
    · obtain ⟨s', x, h1, h2⟩ := merge_safe cfg (by omega) ordS ordO hs ht
      exact ⟨s', x, h1, h2.kin hcfg hP.good⟩
    · obtain ⟨k1, k2, k3, k4⟩ := ht.1
      rw [hrt] at k4
      obtain ⟨k4, k5, k6, k7, k8⟩ := k4
      obtain ⟨L, e1, e2, e3⟩ := goodSparse_iff.1 k4
      have hperm := ordO.perm t.tmpset
      obtain ⟨hc, hz⟩ := hs.typed.regs r hs.regs
      have hu := hs.usable
      rw [hp] at hu
      obtain ⟨r1, h1, h2, h3, h4⟩ := hP.setCodes k1 k2 (ordO.apply t.tmpset) r hu hz
        (fun c hc => k7 c (hperm.mem_iff.1 hc))
      obtain ⟨r2, h5, h6, h7, h8⟩ := hP.setCodes k1 k2 L r1 h2 h3 e3
      refine ⟨{ s with registers := some r2 }, .ok (), ?_,
        Or.inr ⟨r2, hs.setRegs (by rw [hp]; exact h6) ⟨by omega, h7⟩⟩⟩
      rw [Plus.merge, if_neg hprec, hrt, hs.regs]
      simp only
      rw [h1, ok_bind, e1.toList_eq cfg, ok_bind, h5]
      rfl
  · have hd : ∃ s1 r1, toDense cfg ordS s = .ok s1 ∧ s1.precision = s.precision ∧ Dense cfg P s1 r1 := by
      rcases hs with ⟨hrs, hs⟩ | ⟨r, hs⟩
      · obtain ⟨s1, r1, f, h1, h2, h3, h4, h5⟩ := toDense_safe cfg (by omega) ordS hs
        rcases h4.kin hcfg hP.good with ⟨h6, -⟩ | ⟨r2, h6⟩
        · rw [h6] at h2; cases h2
        · exact ⟨s1, r2, h1, h3, h6⟩
      · exact ⟨s, r, by rw [toDense, hs.regs]; rfl, rfl, hs⟩
    obtain ⟨s1, r1, h1, h2, h3⟩ := hd
    obtain ⟨hc, hz⟩ := h3.typed.regs r1 h3.regs
    have hu := ht.usable
    rw [← hp, ← h2] at hu
    obtain ⟨r2, h4, h5, h6, h7⟩ := hP.merge _ r1 rt h3.usable hu hz
    refine ⟨{ s1 with registers := some r2 }, .ok (), ?_, Or.inr ⟨r2, h3.setRegs h5 ⟨by omega, h6⟩⟩⟩
    rw [merge_some cfg ordS ordO hprec ht.regs, h1, ok_bind, h3.regs]
    simp only [unwrap, ok_bind, show SIZE = 6 from rfl]
    rw [Registers.plus_mergeRegs, h4]
    rfl

theorem kin_keeps {cfg : Cfg} (hcfg : 36 < cfg.usizeBits) {P : Nat → Registers → Prop}
    (hP : Closed cfg P) (ln : F64 → F64) (c : Serde.Codec I) : Keeps (Plus.api cfg ln c) (Kin cfg P) where
  new p b := by
    obtain ⟨r, h1, h2⟩ := (keeps_safe cfg hcfg ln c).new p b
    exact ⟨r, h1, fun s hs => (h2 s hs).kin hcfg hP.good⟩
  insert o k s v h := by
    obtain ⟨s', h1, h2⟩ := h.insert hcfg hP o (s.builder v)
    exact ⟨s', by cases k <;> exact h1, h2⟩
  merge o o' s t hs ht := hs.merge hcfg hP o o' ht
  count o s h := by
    rcases h with ⟨_, h⟩ | ⟨r, h⟩
    · obtain ⟨s', c, h1, h2⟩ := count_safe cfg hcfg ln o h
      exact ⟨s', c, h1, h2.kin hcfg hP.good⟩
    · obtain ⟨q, hq⟩ := h.sq
      obtain ⟨x, hx⟩ := countNormal_of_mul cfg (by omega) ln h.hp1 h.hp2 hq r
      refine ⟨s, x, ?_, Or.inr ⟨r, h⟩⟩
      show Plus.count cfg ln o s = _
      unfold Plus.count
      simp only [h.regs, pure_eq_ok, ok_bind, hx]
  reload o s h := ⟨_, rfl, fun s' hs => by
    rcases h with ⟨_, h⟩ | ⟨r, h⟩
    · exact (reload_safe cfg (by omega) o h hs).kin hcfg hP.good
    · obtain ⟨b, t, rfl⟩ := h.typed.reload hs
      exact Or.inr ⟨r, h.regs, h.hp1, h.hp2, h.sq, ⟨h.typed.prec, h.typed.c1, h.typed.c2, h.typed.c3,
        h.typed.sparse, h.typed.regs⟩, h.usable⟩⟩

theorem closed_checked {cfg : Cfg} (ho : cfg.overflowChecks = true) : Closed cfg UsableDense where
  good p r h := usable_of_good h
  set p r i v h hz hi hv := by
    obtain ⟨r', h1, h2, h3, h4⟩ := setGreater_usable ho h hz hi hv
    exact ⟨r', h1, h2, by omega, h4⟩
  merge p r r₂ h h₂ hz := by
    have hS : GoodSize 6 := Or.inr rfl
    have hw : perWord 6 = 5 := rfl
    have u4 := h.1
    have u5 := h.2.1
    rw [usable_zeros] at u5
    obtain ⟨r', e1, e2, e3, e4, e5, e6⟩ := mergeFrom_raw hS cfg ho (2 ^ p) (r₂.iter 6) 0 r hz u5 (by
      intro k hk
      rw [getElem_iter hS _ hk, Nat.zero_add]
      rw [length_iter, hw] at hk
      by_cases hk2 : k < 2 ^ p
      · exact ⟨by rw [hw]; omega, fld_lt _ _, Or.inl hk2⟩
      · obtain ⟨c1, c2⟩ := h₂.2.2 k hk (by omega)
        have c2 : fld 6 r₂ k = 0 := c2
        exact ⟨by rw [hw]; omega, fld_lt _ _, Or.inr (by omega)⟩)
    exact ⟨r', e1, h.setRegs e2 e3 e5 e6, by omega, e3⟩

theorem closed_wrapping {cfg : Cfg} (ho : cfg.overflowChecks = false) :
    Closed cfg UsableWrappingDense where
  good p r h := by
    obtain ⟨k1, k2, k3⟩ := h
    have k2 : r.buf.length = (2 ^ p + 5 - 1) / 5 := k2
    exact ⟨by omega, by omega⟩
  set p r i v h hz hi hv := by
    have g := setGreater_wrapping (S := 6) (Or.inr rfl) cfg ho (r := r) (i := i) v
    have h1 := h.1
    rw [if_pos (by rw [show perWord 6 = 5 from rfl]; omega)] at g
    obtain ⟨r', e1, e2, e3, e4⟩ := g
    exact ⟨r', e1, ⟨by rw [e2]; exact h.1, by rw [e2, e3]; exact h.2⟩, e4 hz, e3⟩
  merge p r r₂ h h₂ hz := by
    have hw : perWord 6 = 5 := rfl
    have g := mergeFrom_wrapping (S := 6) (Or.inr rfl) cfg ho (r₂.iter 6) 0 r
    have h1 := h.1
    have h2 := h₂.2
    rw [if_pos (by
      intro k hk
      rw [length_iter, hw] at hk
      rw [hw, Nat.zero_add]
      omega)] at g
    obtain ⟨r', e1, e2, e3, e4⟩ := g
    exact ⟨r', e1, ⟨by rw [e2]; exact h.1, by rw [e2, e3]; exact h.2⟩, e4 hz, e3⟩

/-! ## Necessity -/

theorem never_insert {cfg : Cfg} {ln : F64 → F64} {c : Serde.Codec I}
    {ords : Nat → IterOrder × IterOrder} {st : List (Plus I)} (h : Never (Plus.api cfg ln c) ords st)
    {i : Nat} {s : Plus I} (hi : st[i]? = some s) (x : I) :
    ∃ ord s', insertHash cfg ord s (s.builder x) = .ok s' ∧
      Never (Plus.api cfg ln c) ords (st.set i s') := by
  obtain ⟨n, st', o, h1, h2⟩ := h.step (.insert .insert i x)
  simp only [HLL.step, hi] at h1
  rw [bind_eq_ok] at h1
  obtain ⟨s', h3, h4⟩ := h1
  cases h4
  exact ⟨_, s', h3, h2⟩

theorem never_merge {cfg : Cfg} {ln : F64 → F64} {c : Serde.Codec I}
    {ords : Nat → IterOrder × IterOrder} {st : List (Plus I)} (h : Never (Plus.api cfg ln c) ords st)
    {i j : Nat} {s t : Plus I} (hi : st[i]? = some s) (hj : st[j]? = some t) :
    ∃ o o' s' r, Plus.merge cfg o o' s t = .ok (s', r) ∧ Never (Plus.api cfg ln c) ords (st.set i s') := by
  obtain ⟨n, st', o, h1, h2⟩ := h.step (.merge i j)
  simp only [HLL.step, hi, hj] at h1
  rw [bind_eq_ok] at h1
  obtain ⟨⟨s', r⟩, h3, h4⟩ := h1
  cases h4
  exact ⟨_, _, s', r, h3, h2⟩

theorem never_new {cfg : Cfg} {ln : F64 → F64} {c : Serde.Codec I}
    {ords : Nat → IterOrder × IterOrder} {st : List (Plus I)} (h : Never (Plus.api cfg ln c) ords st)
    {p : Nat} {b : I → U64} {s : Plus I} (hs : Plus.new cfg p b = .ok (.ok s)) :
    Never (Plus.api cfg ln c) ords (st ++ [s]) := by
  obtain ⟨n, st', o, h1, h2⟩ := h.step (.new p b)
  simp only [HLL.step, Plus.api, hs, ok_bind] at h1
  cases h1
  exact h2

theorem setRegs_eq {s s' : Plus I} {x : R Registers}
    (h : (do let r ← x; pure { s with registers := some r } : R (Plus I)) = .ok s') :
    ∃ r, x = .ok r ∧ s' = { s with registers := some r } := by
  rw [bind_eq_ok] at h
  obtain ⟨r, h1, h2⟩ := h
  cases h2
  exact ⟨r, h1, rfl⟩

/-- Inserting one value into each of the first `k` registers. -/
theorem fill {cfg : Cfg} (hcfg : 32 ≤ cfg.usizeBits) (ho : cfg.overflowChecks = true)
    {ln : F64 → F64} {c : Serde.Codec I} {ords : Nat → IterOrder × IterOrder} {st : List (Plus I)}
    (h : Never (Plus.api cfg ln c) ords st) {i : Nat} {s : Plus I} {r0 : Registers}
    (hi : st[i]? = some s) (hr0 : s.registers = some r0)
    (hz : r0.zeros < 2 ^ cfg.usizeBits)
    (hp1 : 4 ≤ s.precision) (hp2 : s.precision ≤ 18)
    (hb : Function.Surjective s.builder) : ∀ k, k ≤ 2 ^ s.precision →
    ∃ r : Registers, Never (Plus.api cfg ln c) ords (st.set i { s with registers := some r }) ∧
      r.zeros ≤ r0.zeros ∧ (∀ j, fld 6 r0 j ≤ fld 6 r j) ∧
      (∀ j < k, fld 6 r j ≠ 0 ∧ j < 5 * r0.buf.length) ∧
      (∀ N, 2 ^ s.precision ≤ N →
        r.zeros + zeroFields N (fld 6 r0) = r0.zeros + zeroFields N (fld 6 r)) ∧
      ∀ j, k ≤ j → fld 6 r j = fld 6 r0 j := by
  have hS : GoodSize 6 := Or.inr rfl
  have hw : perWord 6 = 5 := rfl
  have hil : i < st.length := by
    by_contra hcon
    rw [List.getElem?_eq_none (by omega)] at hi; cases hi
  intro k hk0
  suffices hs : ∃ r : Registers, Never (Plus.api cfg ln c) ords (st.set i { s with registers := some r }) ∧
      r.zeros ≤ r0.zeros ∧ r.buf.length = r0.buf.length ∧ (∀ j, fld 6 r0 j ≤ fld 6 r j) ∧
      (∀ j < k, fld 6 r j ≠ 0 ∧ j < 5 * r0.buf.length) ∧
      (∀ N, 2 ^ s.precision ≤ N →
        r.zeros + zeroFields N (fld 6 r0) = r0.zeros + zeroFields N (fld 6 r)) ∧
      ∀ j, k ≤ j → fld 6 r j = fld 6 r0 j by
    obtain ⟨r, h1, h2, -, h3, h4, h5⟩ := hs
    exact ⟨r, h1, h2, h3, h4, h5⟩
  induction k with
  | zero =>
    refine ⟨r0, ?_, le_rfl, rfl, fun _ => le_rfl, by simp, fun _ _ => rfl, fun _ _ => rfl⟩
    have : st.set i s = st := by
      apply List.ext_getElem?
      intro j
      by_cases hj : i = j
      · subst hj; rw [List.getElem?_set_self hil, hi]
      · rw [List.getElem?_set_ne hj]
    rw [← hr0, show ({ s with registers := s.registers } : Plus I) = s from rfl, this]
    exact h
  | succ k ih =>
    obtain ⟨r, h1, h2, h5, h3, h4, h7, h8⟩ := ih (by omega)
    have hle : k * 2 ^ (64 - s.precision) < 2 ^ 64 := by
      have : 2 ^ 64 = 2 ^ s.precision * 2 ^ (64 - s.precision) := by rw [← pow_add]; congr 1; omega
      rw [this]
      exact Nat.mul_lt_mul_of_pos_right (by omega) (Nat.two_pow_pos _)
    obtain ⟨x, hx⟩ := hb (BitVec.ofNat 64 (k * 2 ^ (64 - s.precision)))
    have hxn : (s.builder x).toNat = k * 2 ^ (64 - s.precision) := by
      rw [hx, BitVec.toNat_ofNat, Nat.mod_eq_of_lt hle]
    have hget : (st.set i { s with registers := some r })[i]? = some { s with registers := some r } :=
      List.getElem?_set_self hil
    obtain ⟨ord, s', e1, e2⟩ := never_insert h1 hget x
    obtain ⟨v, hv, he⟩ := insertHash_raw cfg hcfg ord (s := { s with registers := some r }) (r := r) rfl
      hp1 hp2 (s.builder x)
    simp only at e1
    rw [he] at e1
    simp only at e1 hv
    rw [hxn, bucket, Nat.mul_div_cancel _ (Nat.two_pow_pos _)] at e1
    obtain ⟨r', e3, rfl⟩ := setRegs_eq (s := { s with registers := some r }) e1
    have hrk := firstOne_le (64 - s.precision) ((s.builder x).toNat)
    have hrp := firstOne_pos (64 - s.precision) ((s.builder x).toNat)
    rw [rank] at hv
    rcases setGreater_cases hS cfg ho (r := r) (i := k) (v := v) (by omega) (by rw [hv]; omega) with g | g | g
    · rw [g.2] at e3; cases e3
    · rw [g.2.2.2.2] at e3; cases e3
    obtain ⟨a0, r2, a1, a2, a3, a4, a5, a6⟩ := g
    rw [a1] at e3
    cases e3
    have hup : ∀ j, fld 6 r j ≤ fld 6 r' j := by
      intro j
      rw [a4]
      by_cases hj : j = k
      · subst hj; simp
      · rw [Function.update_of_ne hj]
    refine ⟨r', by simpa using e2, by omega, by omega, fun j => (h3 j).trans (hup j), ?_, ?_, ?_⟩
    · intro j hj
      by_cases hjk : j = k
      · subst hjk
        refine ⟨?_, ?_⟩
        · rw [a4, Function.update_self]; omega
        · rw [hw] at a0; omega
      · obtain ⟨b1, b2⟩ := h4 j (by omega)
        exact ⟨by have := hup j; omega, b2⟩
    · intro N hN
      have := h7 N hN
      have := a6 N (by omega)
      omega
    · intro j hj
      rw [a4, Function.update_of_ne (by omega), h8 j (by omega)]

/-- Merging into a new sketch. -/
theorem merge_into_new {cfg : Cfg} (hcfg : 32 ≤ cfg.usizeBits)
    {ln : F64 → F64} {c : Serde.Codec I} {ords : Nat → IterOrder × IterOrder} {st : List (Plus I)}
    {i : Nat} {s : Plus I} {r : Registers} (h : Never (Plus.api cfg ln c) ords st) (hi : st[i]? = some s) (hr : s.registers = some r) (hp1 : 4 ≤ s.precision)
    (hp2 : s.precision ≤ 18) :
    ∃ t t0 t1, t.precision = s.precision ∧ t.builder = s.builder ∧
      t.registers = some t1 ∧ Registers.Rep 6 t0 (2 ^ s.precision) (fun _ => 0) ∧
      mergeFrom cfg 6 0 (r.iter 6) t0 = .ok t1 ∧ Never (Plus.api cfg ln c) ords (st ++ [t]) := by
  have hil : i < st.length := (List.getElem?_eq_some_iff.1 hi).1
  obtain ⟨t, g1, g2, g3⟩ := new_ok cfg hcfg hp1 hp2 s.builder
  have hpr := g2.rep.1.prec
  have hn := never_new h g1
  obtain ⟨o, o', t', x, m1, m2⟩ := never_merge hn (i := st.length) (j := i) (s := t) (t := s)
    (by simp) (by rw [List.getElem?_append_left hil, hi])
  obtain ⟨s1, r1, d1, d2, d3, d4, d5, d6, d7⟩ := toDense_ok cfg hcfg o g2.rep
  rw [merge_some cfg o o' (by rw [hpr]; simp) hr, d1, ok_bind, d4] at m1
  simp only [unwrap, ok_bind, show SIZE = 6 from rfl] at m1
  rw [Registers.plus_mergeRegs, bind_eq_ok] at m1
  obtain ⟨r2, m3, m4⟩ := m1
  cases m4
  refine ⟨{ s1 with registers := some r2 }, r1, r2, d2.prec, d3.trans g3, rfl,
    d5.congr (fun j _ => reg_empty 64 _ j), m3, by simpa using m2⟩

theorem never_usable {cfg : Cfg} (hcfg : 32 ≤ cfg.usizeBits) (ho : cfg.overflowChecks = true)
    {ln : F64 → F64} {c : Serde.Codec I} {ords : Nat → IterOrder × IterOrder} {st : List (Plus I)}
    {i : Nat} {s : Plus I} {r : Registers}
    (ht : Typed cfg.usizeBits s) (hb : Function.Surjective s.builder) (hr : s.registers = some r)
    (hp1 : 4 ≤ s.precision) (hp2 : s.precision ≤ 18)
    (h : Never (Plus.api cfg ln c) ords st) (hi : st[i]? = some s) : UsableDense s.precision r := by
  have hS : GoodSize 6 := Or.inr rfl
  have hw : perWord 6 = 5 := rfl
  obtain ⟨hrc, hrz⟩ := ht.regs r hr
  obtain ⟨r', h1, h2, h3, h4, h7, -⟩ := fill hcfg ho h hi hr hrz hp1 hp2 hb _ le_rfl
  refine ⟨?_, ?_, ?_⟩
  · have hpos := Nat.two_pow_pos s.precision
    have := (h4 (2 ^ s.precision - 1) (by omega)).2
    omega
  · rw [usable_zeros]
    have h8 : zeroFields (2 ^ s.precision) (fld 6 r') = 0 := by
      rw [zeroFields, Finset.card_eq_zero, Finset.filter_eq_empty_iff]
      intro j hj
      exact (h4 j (Finset.mem_range.1 hj)).1
    have := h7 _ le_rfl
    omega
  · intro j hj hj2
    obtain ⟨t, t0, t1, g1, g2, g3, g4, g5, g6⟩ := merge_into_new hcfg h hi hr hp1 hp2
    obtain ⟨hb1, hb2⟩ := pow_bounds cfg hcfg hp2
    have hz0 : t0.zeros = 2 ^ s.precision := by rw [g4.zeros_eq]; simp
    have hlen0 : t0.buf.length = (2 ^ s.precision + 5 - 1) / 5 := g4.len_eq
    have hf0 : ∀ k, fld 6 t0 k = 0 := by
      intro k
      by_cases hk : k < 2 ^ s.precision
      · obtain ⟨w, w1, w2⟩ := g4.get_eq k hk
        rw [fld_of_word hS w1, w2]
      · exact g4.clean.fld hS (by omega)
    obtain ⟨a1, a2, a3, a4, a5, a6⟩ := mergeFrom_inv hS cfg ho _ _ _ _ (by omega) (iter_lt hS _) g5
    have hjl : j < (r.iter 6).length := by rw [length_iter, hw]; exact hj
    have hj3 := a5 j hjl
    rw [getElem_iter hS _ hjl, hw, Nat.zero_add] at hj3
    refine ⟨by omega, ?_⟩
    obtain ⟨r2, b1, b2, b3, b4, b7, -⟩ := fill hcfg ho g6 (i := st.length) (s := t) (by simp) g3 (by omega)
      (by rw [g1]; exact hp1) (by rw [g1]; exact hp2) (by rw [g2]; exact hb) _ le_rfl
    rw [g1] at b4 b7
    set N := 5 * ((2 ^ s.precision + 4) / 5) with hN
    have hNp : 2 ^ s.precision ≤ N := by omega
    have hjN : j < N := by omega
    have hlen : (r.iter 6).length ≤ N := by
      by_contra hcon
      have hN' := (a5 N (by omega)).1
      rw [hw] at hN'
      omega
    have c1 := a6 N (by omega)
    have c2 := b7 N hNp
    have c3 : zeroFields N (fld 6 t0) = N := by
      rw [zeroFields, Finset.filter_true_of_mem (fun k _ => hf0 k), Finset.card_range]
    by_contra hne
    have hne' : fld 6 r2 j ≠ 0 := by
      have e1 := b3 j
      have e2 := hj3.2
      have e3 : fld 6 r j ≠ 0 := hne
      omega
    have c5 : zeroFields N (fld 6 r2) < N - 2 ^ s.precision := by
      have : (Finset.range N).filter (fun k => fld 6 r2 k = 0) ⊆
          (Finset.Ico (2 ^ s.precision) N).erase j := by
        intro k hk'
        rw [Finset.mem_filter, Finset.mem_range] at hk'
        rw [Finset.mem_erase, Finset.mem_Ico]
        refine ⟨by rintro rfl; exact hne' hk'.2, ?_, hk'.1⟩
        by_contra hcon
        exact (b4 k (by omega)).1 hk'.2
      have h10 := Finset.card_le_card this
      rw [Finset.card_erase_of_mem (Finset.mem_Ico.2 ⟨hj2, hjN⟩), Nat.card_Ico] at h10
      rw [zeroFields]
      omega
    omega

theorem never_usableW {cfg : Cfg} (hcfg : 32 ≤ cfg.usizeBits) (ho : cfg.overflowChecks = false)
    {ln : F64 → F64} {c : Serde.Codec I} {ords : Nat → IterOrder × IterOrder} {st : List (Plus I)}
    {i : Nat} {s : Plus I} {r : Registers}
    (hb : Function.Surjective s.builder) (hr : s.registers = some r)
    (hp1 : 4 ≤ s.precision) (hp2 : s.precision ≤ 18)
    (h : Never (Plus.api cfg ln c) ords st) (hi : st[i]? = some s) : UsableWrappingDense s.precision r := by
  have hS : GoodSize 6 := Or.inr rfl
  have hw : perWord 6 = 5 := rfl
  refine ⟨?_, ?_⟩
  · obtain ⟨x, hx⟩ := hb (BitVec.ofNat 64 (2 ^ 64 - 1))
    have hxn : (s.builder x).toNat = 2 ^ 64 - 1 := by rw [hx, BitVec.toNat_ofNat]; norm_num
    obtain ⟨ord, s', e1, e2⟩ := never_insert h hi x
    obtain ⟨v, -, he⟩ := insertHash_raw cfg hcfg ord hr hp1 hp2 (s.builder x)
    rw [he, hxn] at e1
    obtain ⟨r', e3, -⟩ := setRegs_eq e1
    have hidx : bucket 64 s.precision (2 ^ 64 - 1) = 2 ^ s.precision - 1 := by
      have hpow : 2 ^ 64 = 2 ^ s.precision * 2 ^ (64 - s.precision) := by
        rw [← pow_add]; congr 1; omega
      have hpos := Nat.two_pow_pos (64 - s.precision)
      have hpos2 := Nat.two_pow_pos s.precision
      rw [bucket, Nat.div_eq_iff hpos, Nat.sub_mul, hpow]
      omega
    rw [hidx] at e3
    have g := setGreater_wrapping hS cfg ho (r := r) (i := 2 ^ s.precision - 1) v
    by_contra hcon
    rw [if_neg (by rw [hw]; omega)] at g
    rw [g] at e3
    cases e3
  · obtain ⟨t, t0, t1, g1, g2, g3, g4, g5, g6⟩ := merge_into_new hcfg h hi hr hp1 hp2
    have hlen0 : t0.buf.length = (2 ^ s.precision + 5 - 1) / 5 := g4.len_eq
    have g := mergeFrom_wrapping hS cfg ho (r.iter 6) 0 t0
    by_contra hcon
    rw [if_neg (fun hall => by
      have := hall (5 * ((2 ^ s.precision + 4) / 5)) (by rw [length_iter, hw]; omega)
      rw [hw] at this
      omega)] at g
    rw [g] at g5
    cases g5

end Plus
end HLL
