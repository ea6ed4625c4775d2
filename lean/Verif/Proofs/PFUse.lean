import Verif.SpecUse
import Verif.Proofs.Packed
import Verif.Proofs.Safe
import Mathlib.Order.Interval.Finset.Nat

/-! # When no program panics on a given `HyperLogLogPF` -/

namespace HLL
open Spec Registers

/-! ## Programs that never panic -/

/-- No program panics when started on the store `st`. -/
def Never {St I : Type} (api : Api St I) (ords : Nat → IterOrder × IterOrder) (st : List St) : Prop :=
  ∃ n, ∀ ops, ∃ r, HLL.run api ords n st ops = .ok r

theorem Never.step {St I : Type} {api : Api St I} {ords : Nat → IterOrder × IterOrder} {st : List St}
    (h : Never api ords st) (op : Op I) :
    ∃ n st' o, HLL.step api (ords n) st op = .ok (st', o) ∧ Never api ords st' := by
  obtain ⟨n, h⟩ := h
  obtain ⟨r, hr⟩ := h [op]
  rw [HLL.run, bind_eq_ok] at hr
  obtain ⟨⟨st', o⟩, h1, -⟩ := hr
  refine ⟨n, st', o, h1, n + 1, fun ops => ?_⟩
  obtain ⟨r, hr⟩ := h (op :: ops)
  rw [HLL.run, h1, ok_bind] at hr
  rw [bind_eq_ok] at hr
  obtain ⟨a, h2, -⟩ := hr
  exact ⟨a, h2⟩

namespace PF
variable {I : Type}

/-- The bounds given by the types of the fields. -/
structure Typed (W : Nat) (s : PF I) : Prop where
  count : s.count < 2 ^ W
  prec : s.precision < 256
  rcount : s.registers.count < 2 ^ W
  zeros : s.registers.zeros < 2 ^ W

theorem Typed.reload {cfg : Cfg} {c : Serde.Codec I} {s s' : PF I} (h : Typed cfg.usizeBits s)
    (he : Serde.dePF cfg c (Serde.serPF c s) = some s') : ∃ b, s' = { s with builder := b } := by
  rw [Serde.dePF_serPF' cfg rfl h.prec h.count h.rcount h.zeros] at he
  cases hb : c.de (c.ser s.builder) with
  | none => rw [hb] at he; cases he
  | some b =>
    rw [hb] at he
    simp only [Option.map_some, Option.some.injEq] at he
    exact ⟨b, he.symm⟩

theorem _root_.HLL.Never.insert {cfg : Cfg} {ln : F64 → F64} {c : Serde.Codec I}
    {ords : Nat → IterOrder × IterOrder} {st : List (PF I)} (h : Never (PF.api cfg ln c) ords st)
    {i : Nat} {s : PF I} (hi : st[i]? = some s) (x : I) :
    ∃ s', insertHash cfg s (s.builder x) = .ok s' ∧ Never (PF.api cfg ln c) ords (st.set i s') := by
  obtain ⟨n, st', o, h1, h2⟩ := h.step (.insert .insert i x)
  simp only [HLL.step, hi] at h1
  rw [bind_eq_ok] at h1
  obtain ⟨s', h3, h4⟩ := h1
  cases h4
  exact ⟨s', h3, h2⟩

theorem _root_.HLL.Never.count {cfg : Cfg} {ln : F64 → F64} {c : Serde.Codec I}
    {ords : Nat → IterOrder × IterOrder} {st : List (PF I)} (h : Never (PF.api cfg ln c) ords st)
    {i : Nat} {s : PF I} (hi : st[i]? = some s) : ∃ x, estimate cfg ln s = .ok x := by
  obtain ⟨n, st', o, h1, h2⟩ := h.step (.count i)
  simp only [HLL.step, hi] at h1
  rw [bind_eq_ok] at h1
  obtain ⟨s', h3, h4⟩ := h1
  simp only [PF.api] at h3
  rw [bind_eq_ok] at h3
  obtain ⟨x, h3, -⟩ := h3
  exact ⟨x, h3⟩

theorem _root_.HLL.Never.merge {cfg : Cfg} {ln : F64 → F64} {c : Serde.Codec I}
    {ords : Nat → IterOrder × IterOrder} {st : List (PF I)} (h : Never (PF.api cfg ln c) ords st)
    {i j : Nat} {s t : PF I} (hi : st[i]? = some s) (hj : st[j]? = some t) :
    ∃ s' r, PF.merge cfg s t = .ok (s', r) ∧ Never (PF.api cfg ln c) ords (st.set i s') := by
  obtain ⟨n, st', o, h1, h2⟩ := h.step (.merge i j)
  simp only [HLL.step, hi, hj] at h1
  rw [bind_eq_ok] at h1
  obtain ⟨⟨s', r⟩, h3, h4⟩ := h1
  cases h4
  exact ⟨s', r, h3, h2⟩

theorem _root_.HLL.Never.new {cfg : Cfg} {ln : F64 → F64} {c : Serde.Codec I}
    {ords : Nat → IterOrder × IterOrder} {st : List (PF I)} (h : Never (PF.api cfg ln c) ords st)
    {p : Nat} {b : I → U64} {s : PF I} (hs : PF.new cfg p b = .ok (.ok s)) :
    Never (PF.api cfg ln c) ords (st ++ [s]) := by
  obtain ⟨n, st', o, h1, h2⟩ := h.step (.new p b)
  simp only [HLL.step, PF.api, hs, ok_bind] at h1
  cases h1
  exact h2

/-! ## With overflow checks -/

/-- The index and the rank computed by `insert`. -/
theorem insertHash_checked (cfg : Cfg) (hcfg : 32 < cfg.usizeBits) (s : PF I)
    (hp1 : 1 ≤ s.precision) (hp2 : s.precision ≤ 31) (x : U64) :
    ∃ v : U32, v.toNat = firstOne (32 - s.precision) (x.toNat % 2 ^ 32) ∧
      insertHash cfg s x = (do
        let r ← s.registers.setGreater cfg 5 (x.toNat % 2 ^ 32 / 2 ^ (32 - s.precision)) v
        pure { s with registers := r }) := by
  generalize hy : (x.setWidth 32 : U32) = y
  have hyv : y.toNat = x.toNat % 2 ^ 32 := by rw [← hy, BitVec.toNat_setWidth]
  have hlz := leadingZeros_guard y (p := s.precision) hp1 (by omega)
  have hrk := firstOne_le (32 - s.precision) y.toNat
  refine ⟨BitVec.ofNat 32 (1 + leadingZeros (y <<< s.precision ||| 1#32 <<< (s.precision - 1))), ?_, ?_⟩
  · rw [hlz, BitVec.toNat_ofNat, Nat.mod_eq_of_lt (by omega), hyv]
  · rw [insertHash]
    simp only [hy]
    rw [subU8_ok cfg (by omega) (by norm_num), ok_bind, shr_ok cfg y (by omega), ok_bind,
      shl_ok cfg y (by omega), ok_bind, subU8_ok cfg (by omega) (by omega), ok_bind,
      shl_ok cfg _ (by omega), ok_bind]
    simp only [show SIZE = 5 from rfl]
    rw [BitVec.toNat_ushiftRight, Nat.shiftRight_eq_div_pow, hyv, Nat.mod_eq_of_lt]
    have h1 : x.toNat % 2 ^ 32 / 2 ^ (32 - s.precision) ≤ x.toNat % 2 ^ 32 := Nat.div_le_self _ _
    have h2 : x.toNat % 2 ^ 32 < 2 ^ 32 := Nat.mod_lt _ (by norm_num)
    have h3 : 2 ^ 32 ≤ 2 ^ cfg.usizeBits := Nat.pow_le_pow_right (by norm_num) (by omega)
    omega

theorem subU8_error (cfg : Cfg) (ho : cfg.overflowChecks = true) {a b : Nat} (h : a < b) :
    subU8 cfg a b = .error .overflow := by
  unfold subU8 ck
  rw [if_neg (by omega), if_pos ho]

theorem shl_error {w : Nat} (cfg : Cfg) (ho : cfg.overflowChecks = true) (x : BitVec w) {k : Nat}
    (h : w ≤ k) : shl cfg x k = .error .overflow := by
  unfold shl shAmt
  rw [if_neg (by omega), if_pos ho]
  rfl

/-- Precisions at which `insert` always panics. -/
theorem insertHash_bad (cfg : Cfg) (ho : cfg.overflowChecks = true) {s : PF I}
    (hp : s.precision = 0 ∨ 32 ≤ s.precision) (x : U64) : insertHash cfg s x = .error .overflow := by
  rw [insertHash]
  rcases hp with hp | hp
  · rw [hp, subU8_ok cfg (by omega) (by norm_num), ok_bind]
    unfold shr shAmt
    rw [if_neg (by omega), if_pos ho]
    rfl
  · by_cases h32 : s.precision = 32
    · rw [h32, subU8_ok cfg (by omega) (by norm_num), ok_bind, shr_ok cfg _ (by norm_num), ok_bind,
        shl_error cfg ho _ (by norm_num)]
      rfl
    · rw [subU8_error cfg ho (by omega)]
      rfl

theorem setRegs_eq {s s' : PF I} {x : R Registers}
    (h : (do let r ← x; pure { s with registers := r } : R (PF I)) = .ok s') :
    ∃ r, x = .ok r ∧ s' = { s with registers := r } := by
  rw [bind_eq_ok] at h
  obtain ⟨r, h1, h2⟩ := h
  cases h2
  exact ⟨r, h1, rfl⟩

theorem bucket_lt' {p : Nat} (hp : p ≤ 32) (x : Nat) : x % 2 ^ 32 / 2 ^ (32 - p) < 2 ^ p :=
  bucket_lt (w := 32) hp (Nat.mod_lt _ (by norm_num))

theorem usable_zeros (p : Nat) (r : Registers) :
    ((List.range (2 ^ p)).map (packed 5 (r.buf.map BitVec.toNat))).count 0 =
      zeroFields (2 ^ p) (fld 5 r) := count_zero_eq_card _ _

/-- The sketches of a program started on `s0`. -/
structure Kin (cfg : Cfg) (s0 s : PF I) : Prop where
  usable : UsablePF cfg.usizeBits s
  typed : Typed cfg.usizeBits s
  same : s.precision < 4 ∨ 16 < s.precision → s.precision = s0.precision ∧
    s.registers.buf.length = s0.registers.buf.length ∧ s.registers.count = s0.registers.count ∧
    ∀ j, 2 ^ s.precision ≤ j → fld 5 s.registers j = fld 5 s0.registers j

/-- Replacing the registers by ones with the same extra fields. -/
theorem Kin.setRegs {cfg : Cfg} {s0 s : PF I} (h : Kin cfg s0 s) {r : Registers}
    (h1 : r.buf.length = s.registers.buf.length) (h2 : r.count = s.registers.count)
    (h3 : r.zeros ≤ s.registers.zeros) (h4 : zeroFields (2 ^ s.precision) (fld 5 r) ≤ r.zeros)
    (h5 : ∀ j, 2 ^ s.precision ≤ j → fld 5 r j = fld 5 s.registers j) :
    Kin cfg s0 { s with registers := r } := by
  obtain ⟨⟨u1, u2, u3, u4, u5, u6⟩, ⟨t1, t2, t3, t4⟩, sm⟩ := h
  refine ⟨⟨u1, u2, u3, by simpa only [h1] using u4, by rw [usable_zeros]; exact h4, ?_⟩,
    ⟨t1, t2, by simpa only [h2] using t3, by simp only; omega⟩, ?_⟩
  · intro h6 h7 j h8 h9
    obtain ⟨g1, g2⟩ := u6 h6 h7 j (by simpa only [h1, h2] using h8) h9
    exact ⟨g1, by rw [← g2]; exact h5 j h9⟩
  · intro h6
    obtain ⟨g1, g2, g3, g4⟩ := sm h6
    exact ⟨g1, by simp only; omega, by simp only; omega, fun j hj => (h5 j hj).trans (g4 j hj)⟩

theorem Kin.insert {cfg : Cfg} (hcfg : 32 < cfg.usizeBits) (ho : cfg.overflowChecks = true)
    {s0 s : PF I} (h : Kin cfg s0 s) (x : U64) : ∃ s', insertHash cfg s x = .ok s' ∧ Kin cfg s0 s' := by
  have hk := h
  obtain ⟨⟨u1, u2, u3, u4, u5, u6⟩, ⟨t1, t2, t3, t4⟩, sm⟩ := h
  obtain ⟨v, hv, he⟩ := insertHash_checked cfg hcfg s (by omega) u2 x
  have hb := bucket_lt' (p := s.precision) (by omega) x.toNat
  generalize hi : x.toNat % 2 ^ 32 / 2 ^ (32 - s.precision) = i at he hb
  have hrk := firstOne_le (32 - s.precision) (x.toNat % 2 ^ 32)
  have hS : GoodSize 5 := Or.inl rfl
  rw [usable_zeros] at u5
  rcases setGreater_cases hS cfg ho t4 (i := i) (v := v) (by rw [hv]; omega) with g | g | g
  · exfalso
    have h1 : perWord 5 = 6 := rfl
    rw [h1] at g
    omega
  · exfalso
    have : 0 < zeroFields (2 ^ s.precision) (fld 5 s.registers) :=
      Finset.card_pos.2 ⟨i, by simp [hb, g.2.1]⟩
    omega
  · obtain ⟨_, r', e1, e2, e3, e4, e5, e6⟩ := g
    refine ⟨{ s with registers := r' }, by rw [he, e1]; rfl, hk.setRegs e2 e3 e5 ?_ ?_⟩
    · have := e6 _ hb
      omega
    · intro j hj
      rw [e4, Function.update_of_ne (by omega)]

theorem Kin.merge {cfg : Cfg} (ho : cfg.overflowChecks = true)
    {s0 s t : PF I} (hs : Kin cfg s0 s) (ht : Kin cfg s0 t) :
    ∃ s' r, PF.merge cfg s t = .ok (s', r) ∧ Kin cfg s0 s' := by
  by_cases hp : s.precision = t.precision
  swap
  · exact ⟨s, _, merge_error cfg hp, hs⟩
  have hS : GoodSize 5 := Or.inl rfl
  have hw : perWord 5 = 6 := rfl
  have u4 := hs.usable.2.2.2.1
  have u5 := hs.usable.2.2.2.2.1
  rw [usable_zeros] at u5
  obtain ⟨r', e1, e2, e3, e4, e5, e6⟩ := mergeFrom_raw hS cfg ho (2 ^ s.precision)
    (t.registers.iter 5) 0 s.registers hs.typed.zeros u5 (by
      intro k hk
      rw [getElem_iter hS _ hk, Nat.zero_add]
      rw [length_iter, hw] at hk
      by_cases hin : s.precision < 4 ∨ 16 < s.precision
      · obtain ⟨_, a2, a3, a4⟩ := hs.same hin
        obtain ⟨_, b2, b3, b4⟩ := ht.same (by omega)
        refine ⟨by rw [hw]; omega, fld_lt _ _, ?_⟩
        by_cases hk2 : k < 2 ^ s.precision
        · exact Or.inl hk2
        · right
          rw [a4 k (by omega), b4 k (by rw [← hp]; omega)]
      · by_cases hk2 : k < 2 ^ s.precision
        · exact ⟨by rw [hw]; omega, fld_lt _ _, Or.inl hk2⟩
        · obtain ⟨c1, c2⟩ := ht.usable.2.2.2.2.2 (by omega) (by omega) k hk (by rw [← hp]; omega)
          have c2 : fld 5 t.registers k = 0 := c2
          rw [← hp] at c1
          exact ⟨by rw [hw]; omega, fld_lt _ _, Or.inr (by omega)⟩)
  refine ⟨{ s with registers := r' }, .ok (), ?_, hs.setRegs e2 e3 e4 e5 e6⟩
  rw [PF.merge, if_neg (not_not.2 hp), show SIZE = 5 from rfl, Registers.pf_mergeRegs, e1]
  rfl

theorem terms_any (cfg : Cfg) (r : Registers) : ∃ ts, Common.terms cfg (r.iter 5) = .ok ts :=
  ⟨_, terms_ok cfg (fun v hv => lt_of_lt_of_le (iter_lt (Or.inl rfl) r v hv) (by split <;> norm_num))⟩

/-- `count` succeeds if the square of `count` can be computed. -/
theorem estimate_of_mul (cfg : Cfg) (ln : F64 → F64) {s : PF I} {m : Nat}
    (h : mulUsize cfg s.count s.count = .ok m) : ∃ x, estimate cfg ln s = .ok x := by
  obtain ⟨ts, hts⟩ := terms_any cfg s.registers
  rw [estimate, show SIZE = 5 from rfl, Common.estimateRawPlus, hts, ok_bind, Common.finishRaw, h]
  simp only [ok_bind, pure_eq_ok]
  rw [shl_ok cfg _ (by norm_num), ok_bind]
  split
  · exact ⟨_, rfl⟩
  · split <;> exact ⟨_, rfl⟩

theorem new_kin {cfg : Cfg} (hcfg : 32 < cfg.usizeBits) {s0 s : PF I} {p : Nat} {b : I → U64}
    (hp1 : 4 ≤ p) (hp2 : p ≤ 16) (h : PF.new cfg p b = .ok (.ok s)) : Kin cfg s0 s := by
  obtain ⟨s', h1, h2, _⟩ := new_ok cfg (by omega) hp1 hp2 b
  rw [h1] at h
  cases h
  obtain ⟨⟨hb1, hb2⟩, hb3⟩ := pow_bounds cfg (by omega) hp1 hp2
  obtain ⟨g1, g2, g3, g4⟩ := h2.good
  have hpr := h2.prec
  have h32 : 2 ^ 32 < 2 ^ cfg.usizeBits := Nat.pow_lt_pow_right (by norm_num) (by omega)
  obtain ⟨k1, k2, k3⟩ := g4
  rw [hpr] at g1 g2 g3 k1 k2 k3
  have hmul : 2 ^ p * 2 ^ p ≤ 2 ^ 16 * 2 ^ 16 := Nat.mul_le_mul hb2 hb2
  have k2 : s.registers.buf.length = (2 ^ p + 6 - 1) / 6 := k2
  have hz : s.registers.zeros ≤ 2 ^ p := by
    rw [k3, count_zero_eq_card]
    exact (Finset.card_filter_le _ _).trans (by simp)
  refine ⟨⟨by omega, by omega, by rw [g3]; omega, by rw [hpr]; omega, by rw [hpr, k3], ?_⟩,
    ⟨by omega, by omega, by omega, by omega⟩, by omega⟩
  intro _ _ j hj hj2
  rw [hpr] at hj2
  omega

theorem kin_keeps {cfg : Cfg} (hcfg : 32 < cfg.usizeBits) (ho : cfg.overflowChecks = true)
    (ln : F64 → F64) (c : Serde.Codec I) (s0 : PF I) : Keeps (PF.api cfg ln c) (Kin cfg s0) where
  new p b := by
    by_cases hp : 4 ≤ p ∧ p ≤ 16
    · obtain ⟨s, h1, h2, _⟩ := new_ok cfg (by omega) hp.1 hp.2 b
      exact ⟨_, h1, fun s' hs => by cases hs; exact new_kin hcfg hp.1 hp.2 h1⟩
    · exact ⟨_, new_error cfg (by omega) b, fun s' hs => by cases hs⟩
  insert o k s v h := by
    obtain ⟨s', h1, h2⟩ := h.insert hcfg ho (s.builder v)
    exact ⟨s', by cases k <;> exact h1, h2⟩
  merge o o' s t hs ht := hs.merge ho ht
  count o s h := by
    obtain ⟨x, hx⟩ := estimate_of_mul cfg ln (mulUsize_ok cfg h.usable.2.2.1)
    exact ⟨s, x, by simp only [PF.api, hx, ok_bind]; rfl, h⟩
  reload o s h := ⟨_, rfl, fun s' hs => by
    obtain ⟨b, rfl⟩ := h.typed.reload hs
    exact ⟨h.usable, ⟨h.typed.count, h.typed.prec, h.typed.rcount, h.typed.zeros⟩, h.same⟩⟩

/-! ### Necessity -/

/-- Inserting one value into each of the first `k` registers. -/
theorem fill {cfg : Cfg} (hcfg : 32 < cfg.usizeBits) (ho : cfg.overflowChecks = true)
    {ln : F64 → F64} {c : Serde.Codec I} {ords : Nat → IterOrder × IterOrder} {st : List (PF I)}
    (h : Never (PF.api cfg ln c) ords st) {i : Nat} {s : PF I} (hi : st[i]? = some s)
    (hz : s.registers.zeros < 2 ^ cfg.usizeBits)
    (hp1 : 2 ≤ s.precision) (hp2 : s.precision ≤ 31)
    (hb : ∀ y : U32, ∃ x, (s.builder x).setWidth 32 = y) : ∀ k, k ≤ 2 ^ s.precision →
    ∃ r : Registers, Never (PF.api cfg ln c) ords (st.set i { s with registers := r }) ∧
      r.zeros ≤ s.registers.zeros ∧ (∀ j, fld 5 s.registers j ≤ fld 5 r j) ∧
      (∀ j < k, fld 5 r j ≠ 0 ∧ j < 6 * s.registers.buf.length) ∧
      r.buf.length = s.registers.buf.length ∧
      (∀ j, 2 ^ s.precision ≤ j → fld 5 r j = fld 5 s.registers j) ∧
      ∀ N, 2 ^ s.precision ≤ N →
        r.zeros + zeroFields N (fld 5 s.registers) = s.registers.zeros + zeroFields N (fld 5 r) := by
  have hS : GoodSize 5 := Or.inl rfl
  have hw : perWord 5 = 6 := rfl
  have hil : i < st.length := by
    by_contra hcon
    rw [List.getElem?_eq_none (by omega)] at hi; cases hi
  intro k
  induction k with
  | zero =>
    intro _
    refine ⟨s.registers, ?_, le_rfl, fun _ => le_rfl, by simp, rfl, fun _ _ => rfl, fun _ _ => rfl⟩
    have : st.set i s = st := by
      apply List.ext_getElem?
      intro j
      by_cases hj : i = j
      · subst hj; rw [List.getElem?_set_self hil, hi]
      · rw [List.getElem?_set_ne hj]
    rw [show ({ s with registers := s.registers } : PF I) = s from rfl, this]
    exact h
  | succ k ih =>
    intro hk
    obtain ⟨r, h1, h2, h3, h4, h5, h6, h7⟩ := ih (by omega)
    have hle : k * 2 ^ (32 - s.precision) < 2 ^ 32 := by
      have : 2 ^ 32 = 2 ^ s.precision * 2 ^ (32 - s.precision) := by rw [← pow_add]; congr 1; omega
      rw [this]
      exact Nat.mul_lt_mul_of_pos_right (by omega) (Nat.two_pow_pos _)
    obtain ⟨x, hx⟩ := hb (BitVec.ofNat 32 (k * 2 ^ (32 - s.precision)))
    have hxn : (s.builder x).toNat % 2 ^ 32 = k * 2 ^ (32 - s.precision) := by
      have := congrArg BitVec.toNat hx
      rw [BitVec.toNat_setWidth, BitVec.toNat_ofNat, Nat.mod_eq_of_lt hle] at this
      exact this
    have hget : (st.set i { s with registers := r })[i]? = some { s with registers := r } :=
      List.getElem?_set_self hil
    obtain ⟨s', e1, e2⟩ := h1.insert hget x
    obtain ⟨v, hv, he⟩ := insertHash_checked cfg hcfg { s with registers := r } (by simp only; omega)
      (by simp only; omega) (s.builder x)
    simp only at e1
    rw [he] at e1
    simp only at e1
    rw [hxn, Nat.mul_div_cancel _ (Nat.two_pow_pos _)] at e1
    obtain ⟨r', e3, rfl⟩ := setRegs_eq e1
    have hrk := firstOne_le (32 - s.precision) ((s.builder x).toNat % 2 ^ 32)
    have hrp := firstOne_pos (32 - s.precision) ((s.builder x).toNat % 2 ^ 32)
    simp only at hv
    rcases setGreater_cases hS cfg ho (r := r) (i := k) (v := v) (by omega) (by rw [hv]; omega) with g | g | g
    · rw [g.2] at e3; cases e3
    · rw [g.2.2.2.2] at e3; cases e3
    obtain ⟨a0, r2, a1, a2, a3, a4, a5, a6⟩ := g
    rw [a1] at e3
    cases e3
    have hup : ∀ j, fld 5 r j ≤ fld 5 r' j := by
      intro j
      rw [a4]
      by_cases hj : j = k
      · subst hj; simp
      · rw [Function.update_of_ne hj]
    refine ⟨r', by simpa using e2, by omega, fun j => (h3 j).trans (hup j), ?_, by omega, ?_, ?_⟩
    · intro j hj
      by_cases hjk : j = k
      · subst hjk
        refine ⟨?_, ?_⟩
        · rw [a4, Function.update_self]; omega
        · rw [hw] at a0; omega
      · obtain ⟨b1, b2⟩ := h4 j (by omega)
        exact ⟨by have := hup j; omega, b2⟩
    · intro j hj
      rw [a4, Function.update_of_ne (by omega)]
      exact h6 j hj
    · intro N hN
      have := h7 N hN
      have := a6 N (by omega)
      omega

/-- With precision 1 the rank of the hash 0 is 32, which leaves register 0 at zero. -/
theorem setGreater_rank32 (cfg : Cfg) (ho : cfg.overflowChecks = true) {r r' : Registers}
    (hz : r.zeros < 2 ^ cfg.usizeBits)
    (h : r.setGreater cfg 5 0 32#32 = .ok r') :
    fld 5 r' 0 = 0 ∧ r'.zeros ≤ r.zeros ∧ (fld 5 r 0 = 0 → r'.zeros + 1 = r.zeros) := by
  have hS : GoodSize 5 := Or.inl rfl
  have hlt : 0 < r.buf.length := by
    by_contra hcon
    rw [setGreater, index, show 0 / perWord 5 = 0 from rfl, List.getElem?_eq_none (by omega)] at h
    cases h
  have hw : r.buf[0 / perWord 5]? = some r.buf[0] := List.getElem?_eq_getElem hlt
  generalize r.buf[0] = w at hw
  have hl := fld_of_word hS hw
  have hset : ∀ u : U32, ∀ z n, fld 5 ⟨r.buf.set 0 u, n, z⟩ 0 = (lane 5 u 0).toNat := fun u z n =>
    fld_of_word hS (r := ⟨r.buf.set 0 u, n, z⟩) (j := 0) (by simp [hlt])
  have hor : ∀ u : U32, lane 5 u 0 = 0#32 → lane 5 (u ||| 32#32 <<< 0) 0 = 0#32 := by
    intro u hu
    apply BitVec.eq_of_getLsbD_eq
    intro j hj
    have hu' := congrArg (fun y => BitVec.getLsbD y j) hu
    simp only [getLsbD_lane hS] at hu' ⊢
    by_cases h5 : j < 5
    · have h2 : (32#32 <<< 0 : U32).getLsbD (0 * 5 + j) = false := by interval_cases j <;> decide
      rw [BitVec.getLsbD_or, h2, Bool.or_false]
      exact hu'
    · simp [h5]
  have hgt : (32#32 : U32) > lane 5 w 0 := by
    have := lane_lt hS w 0
    exact BitVec.lt_def.2 (by simpa using this)
  rw [setGreater, index, hw] at h
  simp only [ok_bind] at h
  rw [show (0 % perWord 5 * 5) = 0 from rfl, show (0 / perWord 5) = 0 from rfl, shr_ok cfg w (by norm_num),
    ok_bind] at h
  have hcur : (w >>> 0 &&& mask 5) = lane 5 w 0 := rfl
  rw [hcur, if_pos hgt] at h
  by_cases h0 : lane 5 w 0 = 0#32
  · rw [if_pos h0] at h
    by_cases hz0 : r.zeros = 0
    · rw [subUsize_error cfg ho (by omega)] at h; cases h
    · rw [subUsize_ok cfg (by omega) hz, ok_bind, shl_ok cfg _ (by norm_num), ok_bind,
        setIndex_ok _ hlt, ok_bind] at h
      cases h
      refine ⟨?_, by simp, fun _ => by simp only; omega⟩
      rw [hset, hor w h0]
      rfl
  · rw [if_neg h0, shl_ok cfg _ (by norm_num), ok_bind, shl_ok cfg _ (by norm_num), ok_bind,
      setIndex_ok _ hlt, ok_bind] at h
    cases h
    refine ⟨?_, le_rfl, fun hf => absurd (BitVec.eq_of_toNat_eq (by simpa using hl.symm.trans hf)) h0⟩
    rw [hset, hor]
    · rfl
    · apply BitVec.eq_of_getLsbD_eq
      intro j hj
      rw [getLsbD_lane hS]
      by_cases h5 : j < 5
      · simp only [BitVec.getLsbD_and, BitVec.getLsbD_not, BitVec.getLsbD_shiftLeft, getLsbD_mask hS]
        simp [h5]
      · simp [h5]

/-- With precision 1 some program panics. -/
theorem prec_one {cfg : Cfg} (hcfg : 32 < cfg.usizeBits) (ho : cfg.overflowChecks = true)
    {ln : F64 → F64} {c : Serde.Codec I} {ords : Nat → IterOrder × IterOrder} {s : PF I}
    (h : Never (PF.api cfg ln c) ords [s]) (hz : s.registers.zeros < 2 ^ cfg.usizeBits)
    (hp : s.precision = 1) {x : I} (hx : (s.builder x).setWidth 32 = 0#32) : False := by
  have hxn : (s.builder x).toNat % 2 ^ 32 = 0 := by
    have := congrArg BitVec.toNat hx
    rw [BitVec.toNat_setWidth] at this
    exact this
  have hstep : ∀ r : Registers, r.zeros < 2 ^ cfg.usizeBits →
      Never (PF.api cfg ln c) ords [{ s with registers := r }] →
      ∃ r' : Registers, Never (PF.api cfg ln c) ords [{ s with registers := r' }] ∧ fld 5 r' 0 = 0 ∧
        r'.zeros ≤ r.zeros ∧ (fld 5 r 0 = 0 → r'.zeros + 1 = r.zeros) := by
    intro r hr hn
    obtain ⟨s', e1, e2⟩ := hn.insert (i := 0) rfl x
    obtain ⟨v, hv, he⟩ := insertHash_checked cfg hcfg { s with registers := r } (by simp only; omega)
      (by simp only; omega) (s.builder x)
    simp only at e1
    rw [he] at e1
    simp only at e1 hv
    rw [hxn, hp] at hv
    have hv : v = 32#32 := BitVec.eq_of_toNat_eq (by rw [hv]; decide)
    rw [hxn, Nat.zero_div, hv] at e1
    obtain ⟨r', e3, rfl⟩ := setRegs_eq e1
    exact ⟨r', by simpa using e2, setGreater_rank32 cfg ho hr e3⟩
  obtain ⟨r0, h1, h2, h3, _⟩ := hstep s.registers hz h
  have hall : ∀ k, ∃ r : Registers, Never (PF.api cfg ln c) ords [{ s with registers := r }] ∧
      fld 5 r 0 = 0 ∧ r.zeros + k = r0.zeros := by
    intro k
    induction k with
    | zero => exact ⟨r0, h1, h2, rfl⟩
    | succ k ih =>
      obtain ⟨r, g1, g2, g3⟩ := ih
      obtain ⟨r', g4, g5, g6, g7⟩ := hstep r (by omega) g1
      exact ⟨r', g4, g5, by have := g7 g2; omega⟩
  obtain ⟨r, _, _, hr⟩ := hall (r0.zeros + 1)
  omega

theorem never_usable {cfg : Cfg} (hcfg : 32 < cfg.usizeBits) (ho : cfg.overflowChecks = true)
    {ln : F64 → F64} {c : Serde.Codec I} {ords : Nat → IterOrder × IterOrder} {s : PF I}
    (ht : Typed cfg.usizeBits s) (hb : ∀ y : U32, ∃ x, (s.builder x).setWidth 32 = y)
    (h : Never (PF.api cfg ln c) ords [s]) : UsablePF cfg.usizeBits s := by
  have hS : GoodSize 5 := Or.inl rfl
  have hw : perWord 5 = 6 := rfl
  -- the precision
  have hp : 2 ≤ s.precision ∧ s.precision ≤ 31 := by
    obtain ⟨x, hx⟩ := hb 0#32
    by_contra hcon
    by_cases h1 : s.precision = 1
    · exact prec_one hcfg ho h ht.zeros h1 hx
    · obtain ⟨s', e, _⟩ := h.insert (i := 0) rfl x
      rw [insertHash_bad cfg ho (by omega)] at e
      cases e
  obtain ⟨hp1, hp2⟩ := hp
  -- the square of `count`
  have hsq : s.count * s.count < 2 ^ cfg.usizeBits := by
    obtain ⟨x, hx⟩ := h.count (i := 0) rfl
    by_contra hcon
    obtain ⟨ts, hts⟩ := terms_any cfg s.registers
    rw [estimate, show SIZE = 5 from rfl, Common.estimateRawPlus, hts, ok_bind, Common.finishRaw,
      mulUsize, ck, if_neg (fun hh => hcon (by have := hh.2; exact_mod_cast this)), if_pos ho] at hx
    cases hx
  -- the words and the number of zeros
  obtain ⟨r, h1, h2, h3, h4, h5, h6, h7⟩ := fill hcfg ho h (i := 0) rfl ht.zeros hp1 hp2 hb _ le_rfl
  refine ⟨hp1, hp2, hsq, ?_, ?_, ?_⟩
  · have hpos := Nat.two_pow_pos s.precision
    have := (h4 (2 ^ s.precision - 1) (by omega)).2
    omega
  · rw [usable_zeros]
    have h8 : zeroFields (2 ^ s.precision) (fld 5 r) = 0 := by
      rw [zeroFields, Finset.card_eq_zero, Finset.filter_eq_empty_iff]
      intro j hj
      exact (h4 j (Finset.mem_range.1 hj)).1
    have := h7 _ le_rfl
    omega
  · -- merging into a new sketch
    intro hp4 hp16 j hj hj2
    obtain ⟨t, g1, g2, g3⟩ := new_ok cfg (by omega) hp4 hp16 s.builder
    have hk := new_kin (s0 := t) hcfg hp4 hp16 g1
    obtain ⟨-, -, -, k1, k2, k3⟩ := g2.good
    have hpr := g2.prec
    rw [hpr] at k1 k2 k3
    have k2 : t.registers.buf.length = (2 ^ s.precision + 6 - 1) / 6 := k2
    have hn := h.new g1
    obtain ⟨t', x, m1, m2⟩ := hn.merge (i := 1) (j := 0) (s := t) (t := s) rfl rfl
    rw [PF.merge, if_neg (by rw [hpr]; simp), show SIZE = 5 from rfl, Registers.pf_mergeRegs,
      bind_eq_ok] at m1
    obtain ⟨r1, m3, m4⟩ := m1
    cases m4
    obtain ⟨a1, a2, a3, a4, a5, a6⟩ := mergeFrom_inv hS cfg ho _ _ _ _ hk.typed.zeros (iter_lt hS _) m3
    have hjl : j < (s.registers.iter 5).length := by rw [length_iter, hw]; exact hj
    have hj3 := a5 j hjl
    rw [getElem_iter hS _ hjl, hw, Nat.zero_add] at hj3
    refine ⟨by omega, ?_⟩
    -- fill the new sketch
    obtain ⟨r2, b1, b2, b3, b4, b5, b6, b7⟩ := fill hcfg ho m2 (i := 1) (s := { t with registers := r1 })
      rfl (lt_of_le_of_lt a3 hk.typed.zeros) (by simp only [hpr]; exact hp1) (by simp only [hpr]; exact hp2)
      (by simp only [g3]; exact hb) _ le_rfl
    simp only [hpr] at b1 b2 b3 b4 b5 b6 b7
    set N := 6 * ((2 ^ s.precision + 5) / 6) with hN
    have hNp : 2 ^ s.precision ≤ N := by omega
    have hjN : j < N := by omega
    have hlen : (s.registers.iter 5).length ≤ N := by
      by_contra hcon
      have hN' := (a5 N (by omega)).1
      rw [hw] at hN'
      omega
    have c1 := a6 N (by omega)
    have c2 := b7 N hNp
    have c3 : zeroFields N (fld 5 t.registers) = N := by
      rw [zeroFields, Finset.filter_true_of_mem, Finset.card_range]
      intro k hk'
      rw [fld_of_word hS (w := 0#32)]
      · simp [lane]
      · rw [hw]
        have hkN := Finset.mem_range.1 hk'
        have : t.registers.buf = List.replicate ((2 ^ s.precision + 6 - 1) / 6) 0#32 := by
          rw [PF.new, if_neg (by simp only [MIN_PRECISION, MAX_PRECISION]; omega), Common.registerCount,
            shlUsizeOne_ok cfg (by omega), ok_bind, show SIZE = 5 from rfl, Registers.withCount,
            Registers.ceil_ok cfg (by decide) (by
              rw [hw]
              have := (pow_bounds cfg (p := s.precision) (by omega) hp4 hp16)
              omega)] at g1
          cases g1
          rfl
        rw [this, List.getElem?_replicate, if_pos (by omega)]
    have c4 : t.registers.zeros = 2 ^ s.precision := by
      rw [k3, count_zero_eq_card]
      change zeroFields _ (fld 5 t.registers) = _
      have h9 : ∀ k < 2 ^ s.precision, fld 5 t.registers k = 0 := by
        intro k hk'
        by_contra hne
        have : zeroFields N (fld 5 t.registers) < N := by
          rw [zeroFields]
          calc _ < (Finset.range N).card := Finset.card_lt_card (by
                rw [Finset.filter_ssubset]
                exact ⟨k, Finset.mem_range.2 (by omega), hne⟩)
            _ = N := Finset.card_range N
        omega
      rw [zeroFields, Finset.filter_true_of_mem (fun k hk' => h9 k (Finset.mem_range.1 hk')), Finset.card_range]
    -- the zero fields of the filled sketch are extra ones
    by_contra hne
    have hne' : fld 5 r2 j ≠ 0 := by
      have e1 := b3 j
      have e2 := hj3.2
      have e3 : fld 5 s.registers j ≠ 0 := hne
      omega
    have c5 : zeroFields N (fld 5 r2) < N - 2 ^ s.precision := by
      have : (Finset.range N).filter (fun k => fld 5 r2 k = 0) ⊆
          (Finset.Ico (2 ^ s.precision) N).erase j := by
        intro k hk'
        rw [Finset.mem_filter, Finset.mem_range] at hk'
        rw [Finset.mem_erase, Finset.mem_Ico]
        refine ⟨by rintro rfl; exact hne' hk'.2, ?_, hk'.1⟩
        by_contra hcon
        exact (b4 k (by omega)).1 hk'.2
      have h10 := Finset.card_le_card this
      rw [Finset.card_erase_of_mem (Finset.mem_Ico.2 ⟨hj2, hjN⟩), Nat.card_Ico] at h10
      rw [zeroFields]
      omega
    omega

/-! ## Without overflow checks -/

theorem subU8_wrapping (cfg : Cfg) (ho : cfg.overflowChecks = false) (a b : Nat) :
    subU8 cfg a b = .ok (((a : Int) - b) % 256).toNat := by
  unfold subU8 ck
  split
  · rename_i h
    congr 2
    rw [Int.emod_eq_of_lt h.1 (by have := h.2; norm_num at this; exact this)]
  · rw [if_neg (by simp [ho])]
    norm_num

theorem shAmt_wrapping (cfg : Cfg) (ho : cfg.overflowChecks = false) (w k : Nat) :
    shAmt cfg w k = .ok (k % w) := by
  unfold shAmt
  split
  · rename_i h
    rw [Nat.mod_eq_of_lt h]
  · rw [if_neg (by simp [ho])]

/-- The number of bits of a hash that `insert` uses as index. -/
def idxBits (p : Nat) : Nat := if p % 32 = 0 then 32 else p % 32

/-- The index computed by `insert`. -/
theorem insertHash_wrapping (cfg : Cfg) (hcfg : 32 < cfg.usizeBits) (ho : cfg.overflowChecks = false)
    (s : PF I) (x : U64) :
    ∃ v : U32, insertHash cfg s x = (do
        let r ← s.registers.setGreater cfg 5 (x.toNat % 2 ^ 32 / 2 ^ (32 - idxBits s.precision)) v
        pure { s with registers := r }) := by
  generalize hy : (x.setWidth 32 : U32) = y
  have hyv : y.toNat = x.toNat % 2 ^ 32 := by rw [← hy, BitVec.toNat_setWidth]
  have hk : (((32 : Nat) : Int) - (s.precision : Int)) % 256 = ((32 - idxBits s.precision) : Nat) + 32 *
      ((((32 : Nat) : Int) - (s.precision : Int)) % 256 / 32) := by
    unfold idxBits
    split <;> omega
  have hk2 : ((((32 : Nat) : Int) - (s.precision : Int)) % 256).toNat % 32 = 32 - idxBits s.precision := by
    have : idxBits s.precision ≤ 32 ∧ 1 ≤ idxBits s.precision := by unfold idxBits; split <;> omega
    omega
  suffices hlt : x.toNat % 2 ^ 32 / 2 ^ (32 - idxBits s.precision) < 2 ^ cfg.usizeBits by
    rw [insertHash]
    simp only [hy, shr, shl, subU8_wrapping cfg ho, shAmt_wrapping cfg ho, ok_bind, pure_eq_ok]
    rw [hk2, show SIZE = 5 from rfl, BitVec.toNat_ushiftRight, Nat.shiftRight_eq_div_pow, hyv,
      Nat.mod_eq_of_lt hlt]
    exact ⟨_, rfl⟩
  have h1 : x.toNat % 2 ^ 32 / 2 ^ (32 - idxBits s.precision) ≤ x.toNat % 2 ^ 32 := Nat.div_le_self _ _
  have h2 : x.toNat % 2 ^ 32 < 2 ^ 32 := Nat.mod_lt _ (by norm_num)
  have h3 : 2 ^ 32 ≤ 2 ^ cfg.usizeBits := Nat.pow_le_pow_right (by norm_num) (by omega)
  omega

theorem idxBits_le (p : Nat) : idxBits p ≤ 32 := by unfold idxBits; split <;> omega

/-- The sketches of a program started on `s0`. -/
structure KinW (cfg : Cfg) (s0 s : PF I) : Prop where
  usable : UsableWrappingPF s
  typed : Typed cfg.usizeBits s
  same : s.precision < 4 ∨ 16 < s.precision → s.precision = s0.precision ∧
    s.registers.buf.length = s0.registers.buf.length ∧ s.registers.count = s0.registers.count

theorem KinW.setRegs {cfg : Cfg} {s0 s : PF I} (h : KinW cfg s0 s) {r : Registers}
    (h1 : r.buf.length = s.registers.buf.length) (h2 : r.count = s.registers.count)
    (h3 : s.registers.zeros < 2 ^ cfg.usizeBits → r.zeros < 2 ^ cfg.usizeBits) :
    KinW cfg s0 { s with registers := r } := by
  obtain ⟨⟨u1, u2⟩, ⟨t1, t2, t3, t4⟩, sm⟩ := h
  refine ⟨⟨by simpa only [h1] using u1, by simpa only [h1, h2] using u2⟩,
    ⟨t1, t2, by simpa only [h2] using t3, h3 t4⟩, by simpa only [h1, h2] using sm⟩

theorem KinW.insert {cfg : Cfg} (hcfg : 32 < cfg.usizeBits) (ho : cfg.overflowChecks = false)
    {s0 s : PF I} (h : KinW cfg s0 s) (x : U64) :
    ∃ s', insertHash cfg s x = .ok s' ∧ KinW cfg s0 s' := by
  obtain ⟨v, he⟩ := insertHash_wrapping cfg hcfg ho s x
  have hb := bucket_lt' (idxBits_le s.precision) x.toNat
  have hu : 2 ^ idxBits s.precision ≤ 6 * s.registers.buf.length := h.usable.1
  generalize x.toNat % 2 ^ 32 / 2 ^ (32 - idxBits s.precision) = i at he hb
  have g := setGreater_wrapping (S := 5) (Or.inl rfl) cfg ho (r := s.registers) (i := i) v
  rw [if_pos (by rw [show perWord 5 = 6 from rfl]; omega)] at g
  obtain ⟨r', e1, e2, e3, e4⟩ := g
  exact ⟨{ s with registers := r' }, by rw [he, e1]; rfl, h.setRegs e2 e3 e4⟩

theorem idxBits_eq {p : Nat} (h1 : 4 ≤ p) (h2 : p ≤ 16) : idxBits p = p := by
  unfold idxBits; rw [if_neg (by omega)]; omega

theorem KinW.merge {cfg : Cfg} (ho : cfg.overflowChecks = false)
    {s0 s t : PF I} (hs : KinW cfg s0 s) (ht : KinW cfg s0 t) :
    ∃ s' r, PF.merge cfg s t = .ok (s', r) ∧ KinW cfg s0 s' := by
  by_cases hp : s.precision = t.precision
  swap
  · exact ⟨s, _, merge_error cfg hp, hs⟩
  have hw : perWord 5 = 6 := rfl
  have g := mergeFrom_wrapping (S := 5) (Or.inl rfl) cfg ho (t.registers.iter 5) 0 s.registers
  rw [if_pos (by
    intro k hk
    rw [length_iter, hw] at hk
    rw [hw, Nat.zero_add]
    by_cases hin : s.precision < 4 ∨ 16 < s.precision
    · have h1 := hs.same hin
      have h2 := ht.same (by omega)
      omega
    · have h1 : 2 ^ idxBits s.precision ≤ _ := hs.usable.1
      rw [idxBits_eq (by omega) (by omega)] at h1
      have h2 := ht.usable.2 (by omega) (by omega)
      rw [← hp] at h2
      omega)] at g
  obtain ⟨r', e1, e2, e3, e4⟩ := g
  refine ⟨{ s with registers := r' }, .ok (), ?_, hs.setRegs e2 e3 e4⟩
  rw [PF.merge, if_neg (not_not.2 hp), show SIZE = 5 from rfl, Registers.pf_mergeRegs, e1]
  rfl

theorem mulUsize_wrapping (cfg : Cfg) (ho : cfg.overflowChecks = false) (a b : Nat) :
    ∃ m, mulUsize cfg a b = .ok m := by
  unfold mulUsize ck
  split
  · exact ⟨_, rfl⟩
  · rw [if_neg (by simp [ho])]; exact ⟨_, rfl⟩

theorem kinW_keeps {cfg : Cfg} (hcfg : 32 < cfg.usizeBits) (ho : cfg.overflowChecks = false)
    (ln : F64 → F64) (c : Serde.Codec I) (s0 : PF I) : Keeps (PF.api cfg ln c) (KinW cfg s0) where
  new p b := by
    by_cases hp : 4 ≤ p ∧ p ≤ 16
    · obtain ⟨s, h1, h2, _⟩ := new_ok cfg (by omega) hp.1 hp.2 b
      refine ⟨_, h1, fun s' hs => ?_⟩
      cases hs
      have hk := new_kin (s0 := s) hcfg hp.1 hp.2 h1
      have hpr := h2.prec
      obtain ⟨-, -, -, k1, k2, -⟩ := h2.good
      have k2 : s.registers.buf.length = (2 ^ s.precision + 6 - 1) / 6 := k2
      refine ⟨⟨?_, fun _ _ => by rw [k1]; omega⟩, hk.typed, by omega⟩
      change 2 ^ idxBits s.precision ≤ _
      rw [idxBits_eq (by omega) (by omega)]
      omega
    · exact ⟨_, new_error cfg (by omega) b, fun s' hs => by cases hs⟩
  insert o k s v h := by
    obtain ⟨s', h1, h2⟩ := h.insert hcfg ho (s.builder v)
    exact ⟨s', by cases k <;> exact h1, h2⟩
  merge o o' s t hs ht := hs.merge ho ht
  count o s h := by
    obtain ⟨m, hm⟩ := mulUsize_wrapping cfg ho s.count s.count
    obtain ⟨x, hx⟩ := estimate_of_mul cfg ln hm
    exact ⟨s, x, by simp only [PF.api, hx, ok_bind]; rfl, h⟩
  reload o s h := ⟨_, rfl, fun s' hs => by
    obtain ⟨b, rfl⟩ := h.typed.reload hs
    exact ⟨h.usable, ⟨h.typed.count, h.typed.prec, h.typed.rcount, h.typed.zeros⟩, h.same⟩⟩

theorem never_usableW {cfg : Cfg} (hcfg : 32 < cfg.usizeBits) (ho : cfg.overflowChecks = false)
    {ln : F64 → F64} {c : Serde.Codec I} {ords : Nat → IterOrder × IterOrder} {s : PF I}
    (ht : Typed cfg.usizeBits s) (hb : ∀ y : U32, ∃ x, (s.builder x).setWidth 32 = y)
    (h : Never (PF.api cfg ln c) ords [s]) : UsableWrappingPF s := by
  have hS : GoodSize 5 := Or.inl rfl
  have hw : perWord 5 = 6 := rfl
  have hwords : 2 ^ idxBits s.precision ≤ 6 * s.registers.buf.length := by
    obtain ⟨x, hx⟩ := hb (BitVec.ofNat 32 (2 ^ 32 - 1))
    have hxn : (s.builder x).toNat % 2 ^ 32 = 2 ^ 32 - 1 := by
      have := congrArg BitVec.toNat hx
      rw [BitVec.toNat_setWidth, BitVec.toNat_ofNat] at this
      rw [this]
      norm_num
    obtain ⟨s', e1, e2⟩ := h.insert (i := 0) rfl x
    obtain ⟨v, he⟩ := insertHash_wrapping cfg hcfg ho s (s.builder x)
    rw [he, hxn] at e1
    obtain ⟨r', e3, -⟩ := setRegs_eq e1
    have hidx : (2 ^ 32 - 1) / 2 ^ (32 - idxBits s.precision) = 2 ^ idxBits s.precision - 1 := by
      have hle := idxBits_le s.precision
      have hpow : 2 ^ 32 = 2 ^ idxBits s.precision * 2 ^ (32 - idxBits s.precision) := by
        rw [← pow_add]; congr 1; omega
      have hpos := Nat.two_pow_pos (32 - idxBits s.precision)
      have hpos2 := Nat.two_pow_pos (idxBits s.precision)
      rw [Nat.div_eq_iff hpos, Nat.sub_mul, hpow]
      omega
    rw [hidx] at e3
    have g := setGreater_wrapping hS cfg ho (r := s.registers) (i := 2 ^ idxBits s.precision - 1) v
    by_contra hcon
    rw [if_neg (by rw [hw]; omega)] at g
    rw [g] at e3
    cases e3
  refine ⟨hwords, ?_⟩
  intro hp4 hp16
  obtain ⟨t, g1, g2, g3⟩ := new_ok cfg (by omega) hp4 hp16 s.builder
  obtain ⟨-, -, -, -, k2, -⟩ := g2.good
  have hpr := g2.prec
  rw [hpr] at k2
  have k2 : t.registers.buf.length = (2 ^ s.precision + 6 - 1) / 6 := k2
  have hn := h.new g1
  obtain ⟨t', x, m1, m2⟩ := hn.merge (i := 1) (j := 0) (s := t) (t := s) rfl rfl
  rw [PF.merge, if_neg (by rw [hpr]; simp), show SIZE = 5 from rfl, Registers.pf_mergeRegs,
    bind_eq_ok] at m1
  obtain ⟨r1, m3, -⟩ := m1
  have g := mergeFrom_wrapping hS cfg ho (s.registers.iter 5) 0 t.registers
  by_contra hcon
  rw [if_neg (fun hall => by
    have := hall (6 * ((2 ^ s.precision + 5) / 6)) (by rw [length_iter, hw]; omega)
    rw [hw] at this
    omega)] at g
  rw [g] at m3
  cases m3

end PF
end HLL
