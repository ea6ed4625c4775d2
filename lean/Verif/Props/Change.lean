import Verif.Proofs.Ranks
import Verif.Props.State

/-! # C66: which insertions change a dense sketch, and how many of the possible hashes do -/

namespace HLL
open Spec

variable {I : Type} {cfg : Cfg} {ln : F64 → F64} {c : Serde.Codec I}
  {ords : Nat → IterOrder × IterOrder} {ops : List (Op I)} {i : Nat}

/-- Raising no register means the same registers. -/
theorem reg_insert_eq {w p : Nat} {S : Finset Nat} {h : Nat} (hr : rank w p h ≤ reg w p S (bucket w p h)) :
    reg w p (insert h S) = reg w p S := by
  rw [reg_insert, max_eq_left hr, Function.update_eq_self]

theorem Plus.insertHash_dense {s s' : Plus I} {r : Registers} (hr : s.registers = some r) {ord : IterOrder}
    {x : U64} (h : Plus.insertHash cfg ord s x = .ok s') : ∃ r', s' = { s with registers := some r' } := by
  rw [Plus.insertHash, hr] at h
  simp only at h
  generalize subU8 cfg 64 s.precision = e1 at h
  cases e1 with
  | error => cases h
  | ok k =>
    rw [ok_bind] at h
    generalize shr cfg x k = e2 at h
    cases e2 with
    | error => cases h
    | ok idx =>
      rw [ok_bind] at h
      generalize shl cfg x s.precision = e3 at h
      cases e3 with
      | error => cases h
      | ok a =>
        rw [ok_bind] at h
        generalize subU8 cfg s.precision 1 = e4 at h
        cases e4 with
        | error => cases h
        | ok k' =>
          rw [ok_bind] at h
          generalize shl cfg 1#64 k' = e5 at h
          cases e5 with
          | error => cases h
          | ok b =>
            rw [ok_bind] at h
            generalize r.setGreater cfg Plus.SIZE _ _ = e6 at h
            cases e6 with
            | error => cases h
            | ok r' => cases h; exact ⟨r', rfl⟩

/-- **C66.** Inserting a value into a dense `HyperLogLogPlus` leaves it as it is, field by field, exactly if
the rank of the value's hash is not larger than the register it belongs to. -/
theorem C66_plus_unchanged {s : Plus I} {a : Abs I} (h : Supported cfg c ops)
    (hr : ReachPlus cfg ln c ords ops i s a) {r : Registers} (hd : s.registers = some r)
    (ord : IterOrder) (x : U64) :
    Plus.insertHash cfg ord s x = .ok s ↔
      rank 64 a.p x.toNat ≤ reg 64 a.p a.S (bucket 64 a.p x.toNat) := by
  obtain ⟨h1, _, _⟩ := hr.means h
  obtain ⟨s', e1, e2, _⟩ := Plus.insertHash_ok cfg h.bits ord h1 x
  obtain ⟨r', rfl⟩ := Plus.insertHash_dense hd e1
  have hp1 := h1.1.hp1
  have hp2 := h1.1.hp2
  have dense : ∀ {t : Plus I} {S : Finset Nat} {q : Registers}, t.registers = some q →
      Plus.Rep a.p t S → Registers.Rep 6 q (2 ^ a.p) (reg 64 a.p S) := by
    rintro t S q ht ⟨_, ⟨L, hs, _⟩ | ⟨q', hd⟩⟩
    · rw [hs.regs] at ht; cases ht
    · rw [hd.regs] at ht; cases ht; exact hd.rep
  have d1 := dense hd h1
  have d2 := dense rfl e2
  rw [e1]
  constructor
  · intro he
    have : some r' = s.registers := congrArg (fun t => t.registers) (Except.ok.inj he)
    rw [hd] at this
    obtain rfl := Option.some.inj this
    have hb := bucket_lt (w := 64) (p := a.p) (by omega) x.isLt
    have e := (d1.iter_eq (Or.inr rfl)).symm.trans (d2.iter_eq (Or.inr rfl))
    have := List.map_inj_left.1 e _ (List.mem_range.2 hb)
    rw [reg_insert, Function.update_self] at this
    omega
  · intro hle
    rw [reg_insert_eq hle] at d2
    have := d1.unique (Or.inr rfl) d2
    subst this
    cases s
    simp only at hd
    subst hd
    rfl

/-- **C66** for `HyperLogLogPF`. -/
theorem C66_pf_unchanged {s : PF I} {a : Abs I} (h : Supported cfg c ops)
    (hr : ReachPF cfg ln c ords ops i s a) (x : U64) :
    PF.insertHash cfg s x = .ok s ↔
      rank 32 a.p (x.toNat % 2 ^ 32) ≤ reg 32 a.p a.S (bucket 32 a.p (x.toNat % 2 ^ 32)) := by
  obtain ⟨h1, _, _⟩ := hr.means h
  obtain ⟨s', e1, e2, e3⟩ := PF.insertHash_ok cfg (by have := h.bits; have := h1.hp2; omega) h1 x
  have hp1 := h1.hp1
  have hp2 := h1.hp2
  rw [e1]
  constructor
  · intro he
    obtain rfl := Except.ok.inj he
    have hb := bucket_lt (w := 32) (p := a.p) (by omega) (Nat.mod_lt x.toNat (by norm_num))
    have e := (h1.rep.iter_eq (Or.inl rfl)).symm.trans (e2.rep.iter_eq (Or.inl rfl))
    have := List.map_inj_left.1 e _ (List.mem_range.2 hb)
    rw [reg_insert, Function.update_self] at this
    omega
  · intro hle
    have d2 := e2.rep
    rw [reg_insert_eq hle] at d2
    have hq := h1.rep.unique (Or.inl rfl) d2
    have hp := h1.prec.trans e2.prec.symm
    have hc := h1.count.trans e2.count.symm
    cases s; cases s'
    simp only at hq hp hc e3
    subst hq hp hc e3
    rfl

/-! ## How many hashes -/

/-- The number of strings of `w - p` bits with rank above `M`. -/
def openings (w p M : Nat) : Nat := if M ≤ w - p then 2 ^ (w - p - M) else 0

/-- The number of 64-bit hashes that raise a register. -/
theorem card_raising {w p : Nat} (hp : p ≤ w) (hw : w ≤ 64) (S : Finset Nat) :
    (Finset.univ.filter fun x : Fin (2 ^ 64) =>
      reg w p S (bucket w p ((x : Nat) % 2 ^ w)) < rank w p ((x : Nat) % 2 ^ w)).card =
    2 ^ (64 - w) * ((regs w p S).map (openings w p)).sum := by
  have h1 : (Finset.univ.filter fun x : Fin (2 ^ 64) =>
      reg w p S (bucket w p ((x : Nat) % 2 ^ w)) < rank w p ((x : Nat) % 2 ^ w)) =
      (Finset.range (2 ^ p)).biUnion fun j => Finset.univ.filter fun x : Fin (2 ^ 64) =>
        bucket w p ((x : Nat) % 2 ^ w) = j ∧ reg w p S j + 1 ≤ rank w p ((x : Nat) % 2 ^ w) := by
    ext x
    simp only [Finset.mem_filter, Finset.mem_univ, true_and, Finset.mem_biUnion, Finset.mem_range]
    constructor
    · intro h
      exact ⟨_, bucket_lt hp (Nat.mod_lt _ (Nat.two_pow_pos w)), rfl, h⟩
    · rintro ⟨j, _, rfl, h⟩
      exact h
  rw [h1, Finset.card_biUnion]
  · rw [regs, List.map_map, ← List.sum_toFinset _ List.nodup_range]
    rw [show (List.range (2 ^ p)).toFinset = Finset.range (2 ^ p) by ext; simp, Finset.mul_sum]
    refine Finset.sum_congr rfl fun j hj => ?_
    rw [Finset.mem_range] at hj
    simp only [Function.comp, openings]
    split
    · rename_i hM
      have hk : p + reg w p S j ≤ w := by omega
      simp only [bucket_rank_iff hk]
      rw [card_bucket hk hw (by rw [pow_add]; exact Nat.mul_lt_mul_of_pos_right hj (Nat.two_pow_pos _)),
        ← pow_add]
      congr 1; omega
    · rw [mul_zero, Finset.card_eq_zero, Finset.filter_eq_empty_iff]
      rintro x _ ⟨_, h⟩
      have := rank_le w p ((x : Nat) % 2 ^ w)
      omega
  · intro j _ k _ hjk
    rw [Function.onFun, Finset.disjoint_left]
    intro x hx hx'
    simp only [Finset.mem_filter] at hx hx'
    exact hjk (hx.2.1.symm.trans hx'.2.1)

theorem card_u64 (P : Nat → Prop) [DecidablePred P] :
    Nat.card { x : U64 // P x.toNat } = (Finset.univ.filter fun x : Fin (2 ^ 64) => P x).card := by
  rw [← Fintype.card_subtype, ← Nat.card_eq_fintype_card]
  refine Nat.card_congr ⟨fun x => ⟨x.1.toFin, x.2⟩, fun x => ⟨⟨x.1⟩, x.2⟩, ?_, ?_⟩
  · rintro ⟨⟨x⟩, h⟩; rfl
  · rintro ⟨x, h⟩; rfl

/-- **C66.** The number of 64-bit hashes whose insertion changes a dense `HyperLogLogPlus` is the sum of
`2^(64-p-M)` over its registers `M` (a full register, `M = 65-p`, contributes nothing). -/
theorem C66_plus_changing {s : Plus I} {a : Abs I} (h : Supported cfg c ops)
    (hr : ReachPlus cfg ln c ords ops i s a) {r : Registers} (hd : s.registers = some r) (ord : IterOrder) :
    Nat.card { x : U64 // Plus.insertHash cfg ord s x ≠ .ok s } =
      (((r.iter 6).map BitVec.toNat).map (openings 64 a.p)).sum := by
  have hp2 := (hr.means h).1.1.hp2
  have h1 : ∀ x : U64, Plus.insertHash cfg ord s x ≠ .ok s ↔
      reg 64 a.p a.S (bucket 64 a.p (x.toNat % 2 ^ 64)) < rank 64 a.p (x.toNat % 2 ^ 64) := by
    intro x
    rw [Ne, C66_plus_unchanged h hr hd, Nat.mod_eq_of_lt x.isLt, not_le]
  rw [C14_plus_registers h hr hd]
  simp only [h1]
  rw [card_u64 (fun x => reg 64 a.p a.S (bucket 64 a.p (x % 2 ^ 64)) < rank 64 a.p (x % 2 ^ 64)),
    card_raising (by omega) le_rfl]
  simp

/-- **C66.** For `HyperLogLogPF` it is `2^32` times the sum of `2^(32-p-M)`. -/
theorem C66_pf_changing {s : PF I} {a : Abs I} (h : Supported cfg c ops)
    (hr : ReachPF cfg ln c ords ops i s a) :
    Nat.card { x : U64 // PF.insertHash cfg s x ≠ .ok s } =
      2 ^ 32 * (((s.registers.iter 5).map BitVec.toNat).map (openings 32 a.p)).sum := by
  have hp2 := (hr.means h).1.hp2
  have h1 : ∀ x : U64, PF.insertHash cfg s x ≠ .ok s ↔
      reg 32 a.p a.S (bucket 32 a.p (x.toNat % 2 ^ 32)) < rank 32 a.p (x.toNat % 2 ^ 32) := by
    intro x
    rw [Ne, C66_pf_unchanged h hr, not_le]
  rw [C14_pf_registers h hr]
  simp only [h1]
  rw [card_u64 (fun x => reg 32 a.p a.S (bucket 32 a.p (x % 2 ^ 32)) < rank 32 a.p (x % 2 ^ 32)),
    card_raising (by omega) (by norm_num)]

/-- The harmonic sum of a list of registers. -/
def harmonic (M : List Nat) : ℚ := (M.map fun m => 1 / 2 ^ m).sum

theorem openings_eq {w p : Nat} (hp : p ≤ w) {M : List Nat} (h : ∀ m ∈ M, m ≤ w - p) :
    (((M.map (openings w p)).sum : Nat) : ℚ) / 2 ^ w = harmonic M / 2 ^ p := by
  induction M with
  | nil => simp [harmonic]
  | cons m M ih =>
    have h1 := h m (by simp)
    have h2 := ih fun m hm => h m (by simp [hm])
    simp only [harmonic, List.map_cons, List.sum_cons] at h2 ⊢
    rw [Nat.cast_add, add_div, add_div, h2, openings, if_pos h1]
    congr 1
    rw [div_div, ← pow_add, div_eq_div_iff (by positivity) (by positivity)]
    push_cast
    rw [one_mul, ← pow_add]
    congr 1; omega

/-- **C66.** As long as no register is full, the probability that a value with a uniform hash changes a dense
`HyperLogLogPlus` is the harmonic sum of its registers divided by their number.  So the raw estimate `α m² / H`
of the algorithm is `α m` divided by that probability. -/
theorem C66_plus_probability {s : Plus I} {a : Abs I} (h : Supported cfg c ops)
    (hr : ReachPlus cfg ln c ords ops i s a) {r : Registers} (hd : s.registers = some r) (ord : IterOrder)
    (hf : ∀ m ∈ (r.iter 6).map BitVec.toNat, m ≤ 64 - a.p) :
    (Nat.card { x : U64 // Plus.insertHash cfg ord s x ≠ .ok s } : ℚ) / 2 ^ 64 =
      harmonic ((r.iter 6).map BitVec.toNat) / 2 ^ a.p := by
  have hp2 := (hr.means h).1.1.hp2
  rw [C66_plus_changing h hr hd, openings_eq (by omega) hf]

/-- **C66** for `HyperLogLogPF`. -/
theorem C66_pf_probability {s : PF I} {a : Abs I} (h : Supported cfg c ops)
    (hr : ReachPF cfg ln c ords ops i s a)
    (hf : ∀ m ∈ (s.registers.iter 5).map BitVec.toNat, m ≤ 32 - a.p) :
    (Nat.card { x : U64 // PF.insertHash cfg s x ≠ .ok s } : ℚ) / 2 ^ 64 =
      harmonic ((s.registers.iter 5).map BitVec.toNat) / 2 ^ a.p := by
  have hp2 := (hr.means h).1.hp2
  rw [C66_pf_changing h hr, ← openings_eq (w := 32) (by omega) hf]
  rw [Nat.cast_mul, Nat.cast_pow, Nat.cast_ofNat, show (2 : ℚ) ^ 64 = 2 ^ 32 * 2 ^ 32 by norm_num,
    mul_div_mul_left _ _ (by positivity)]

/-- **C66.** No hash changes the sketch any more exactly if all registers are full. -/
theorem C66_plus_saturated {s : Plus I} {a : Abs I} (h : Supported cfg c ops)
    (hr : ReachPlus cfg ln c ords ops i s a) {r : Registers} (hd : s.registers = some r) (ord : IterOrder) :
    (∀ x, Plus.insertHash cfg ord s x = .ok s) ↔ ∀ m ∈ (r.iter 6).map BitVec.toNat, m = 65 - a.p := by
  have hp2 := (hr.means h).1.1.hp2
  have hc := C66_plus_changing h hr hd ord
  have hM : ∀ m ∈ (r.iter 6).map BitVec.toNat, m ≤ 65 - a.p := by
    rw [C14_plus_registers h hr hd, regs]
    intro m hm
    obtain ⟨j, _, rfl⟩ := List.mem_map.1 hm
    have := reg_le 64 a.p a.S j
    omega
  generalize (r.iter 6).map BitVec.toNat = M at hc hM
  have h0 : (M.map (openings 64 a.p)).sum = 0 ↔ ∀ m ∈ M, m = 65 - a.p := by
    rw [List.sum_eq_zero_iff]
    simp only [List.mem_map, forall_exists_index, and_imp, forall_apply_eq_imp_iff₂, openings]
    refine forall₂_congr fun m hm => ?_
    have := hM m hm
    split
    · rename_i hle
      have := Nat.two_pow_pos (64 - a.p - m)
      omega
    · omega
  have : Finite U64 := Finite.of_injective BitVec.toFin fun _ _ h => BitVec.eq_of_toFin_eq h
  rw [← h0, ← hc, Finite.card_eq_zero_iff, isEmpty_subtype]
  simp only [ne_eq, not_not]

/-- **C66** for `HyperLogLogPF`. -/
theorem C66_pf_saturated {s : PF I} {a : Abs I} (h : Supported cfg c ops)
    (hr : ReachPF cfg ln c ords ops i s a) :
    (∀ x, PF.insertHash cfg s x = .ok s) ↔ ∀ m ∈ (s.registers.iter 5).map BitVec.toNat, m = 33 - a.p := by
  have hp2 := (hr.means h).1.hp2
  have hc := C66_pf_changing h hr
  have hM : ∀ m ∈ (s.registers.iter 5).map BitVec.toNat, m ≤ 33 - a.p := by
    rw [C14_pf_registers h hr, regs]
    intro m hm
    obtain ⟨j, _, rfl⟩ := List.mem_map.1 hm
    have := reg_le 32 a.p a.S j
    omega
  generalize (s.registers.iter 5).map BitVec.toNat = M at hc hM
  have h0 : (M.map (openings 32 a.p)).sum = 0 ↔ ∀ m ∈ M, m = 33 - a.p := by
    rw [List.sum_eq_zero_iff]
    simp only [List.mem_map, forall_exists_index, and_imp, forall_apply_eq_imp_iff₂, openings]
    refine forall₂_congr fun m hm => ?_
    have := hM m hm
    split
    · rename_i hle
      have := Nat.two_pow_pos (32 - a.p - m)
      omega
    · omega
  have : Finite U64 := Finite.of_injective BitVec.toFin fun _ _ h => BitVec.eq_of_toFin_eq h
  have h1 : (M.map (openings 32 a.p)).sum = 0 ↔
      Nat.card { x : U64 // PF.insertHash cfg s x ≠ .ok s } = 0 := by rw [hc]; omega
  rw [← h0, h1, Finite.card_eq_zero_iff, isEmpty_subtype]
  simp only [ne_eq, not_not]

/-- Programs that make a sketch of precision 4 dense: without full registers, and with all registers full. -/
def demoOpen : List (Op Nat) :=
  .new 4 (fun n => (BitVec.ofNat 64 n) <<< 39) ::
    (List.range 5).map fun n => .insert .insert 0 ((n + 1) * 1000000)

def demoFull : List (Op Nat) :=
  .new 4 (fun n => (BitVec.ofNat 64 n) <<< 60) :: (List.range 16).map fun n => .insert .insert 0 n

theorem demo_reach {ops : List (Op Nat)} (hs : Supported Cfg.debug64 (noCodec Nat) ops)
    {a : Abs Nat} (ha : (contents 64 18 ops)[0]? = some a)
    (h : (match run (Plus.api Cfg.debug64 id (noCodec Nat))
        (fun _ => (IterOrder.id, IterOrder.id)) 0 [] ops with
      | .ok (st, _) => (st[0]?.map Plus.isSparse == some false)
      | .error _ => false) = true) : ∃ s r,
    ReachPlus Cfg.debug64 id (noCodec Nat) (fun _ => (IterOrder.id, IterOrder.id)) ops 0 s a ∧
    s.registers = some r := by
  obtain ⟨s, st, os, h1, h2, h3⟩ := reachPlus_exists (ln := id) (i := 0)
    (ords := fun _ => (IterOrder.id, IterOrder.id)) hs ha
  rw [h1] at h
  simp only [h2, Option.map_some] at h
  cases hr : s.registers with
  | none => simp [Plus.isSparse, hr] at h
  | some r => exact ⟨s, r, ⟨st, os, h1, h2, h3⟩, hr⟩

/-- The hypotheses are met by a dense sketch none of whose registers is full; of the hashes,
some change it and some do not. -/
example : ∃ s a r,
    ReachPlus Cfg.debug64 id (noCodec Nat) (fun _ => (IterOrder.id, IterOrder.id)) demoOpen 0 s a ∧
    s.registers = some r ∧ (∀ m ∈ (r.iter 6).map BitVec.toNat, m ≤ 64 - a.p) ∧
    Plus.insertHash Cfg.debug64 IterOrder.id s 0#64 ≠ .ok s ∧
    Plus.insertHash Cfg.debug64 IterOrder.id s (BitVec.ofNat 64 (1000000 * 2 ^ 39)) = .ok s := by
  have hs := supported64 (cfg := Cfg.debug64) rfl (noCodec Nat) (ops := demoOpen)
    (by simp [demoOpen, List.range, List.range.loop])
  have e : (contents 64 18 demoOpen)[0]?.isSome = true := by decide +kernel
  obtain ⟨s, r, hr, hd⟩ := demo_reach hs (Option.some_get e).symm (by decide +kernel)
  refine ⟨s, _, r, hr, hd, ?_, ?_, ?_⟩
  · rw [C14_plus_registers hs hr hd]
    clear hs hr hd
    revert e; decide +kernel
  · rw [Ne, C66_plus_unchanged hs hr hd]
    clear hs hr hd
    revert e; decide +kernel
  · rw [C66_plus_unchanged hs hr hd]
    clear hs hr hd
    revert e; decide +kernel

/-- Sixteen values can fill a sketch of precision 4 so that no value changes it any more. -/
example : ∃ s a r,
    ReachPlus Cfg.debug64 id (noCodec Nat) (fun _ => (IterOrder.id, IterOrder.id)) demoFull 0 s a ∧
    s.registers = some r ∧ ∀ ord x, Plus.insertHash Cfg.debug64 ord s x = .ok s := by
  have hs := supported64 (cfg := Cfg.debug64) rfl (noCodec Nat) (ops := demoFull)
    (by simp [demoFull, List.range, List.range.loop])
  have e : (contents 64 18 demoFull)[0]?.isSome = true := by decide +kernel
  obtain ⟨s, r, hr, hd⟩ := demo_reach hs (Option.some_get e).symm (by decide +kernel)
  refine ⟨s, _, r, hr, hd, fun ord => (C66_plus_saturated hs hr hd ord).2 ?_⟩
  rw [C14_plus_registers hs hr hd]
  clear hs hr hd
  revert e; decide +kernel

/-- The same for `HyperLogLogPF`: the sixteen multiples of `2^28`. -/
def demoFullPF : List (Op Nat) :=
  .new 4 (fun n => (BitVec.ofNat 64 n) <<< 28) :: (List.range 16).map (.insert .insert 0)

example : ∃ s a,
    ReachPF Cfg.debug64 id (noCodec Nat) (fun _ => (IterOrder.id, IterOrder.id)) demoFullPF 0 s a ∧
    ∀ x, PF.insertHash Cfg.debug64 s x = .ok s := by
  have hs := supported64 (cfg := Cfg.debug64) rfl (noCodec Nat) (ops := demoFullPF)
    (by simp [demoFullPF, List.range, List.range.loop])
  have e : (contents 32 16 demoFullPF)[0]?.isSome = true := by decide +kernel
  obtain ⟨s, hr⟩ := reachPF_exists (ln := id) (ords := fun _ => (IterOrder.id, IterOrder.id)) hs
    (Option.some_get e).symm
  refine ⟨s, _, hr, (C66_pf_saturated hs hr).2 ?_⟩
  rw [C14_pf_registers hs hr]
  clear hs hr
  revert e; decide +kernel

end HLL
