import Verif.Model.Serde
import Verif.Proofs.Count

/-! # Serialisation round-trips -/

namespace HLL
namespace Serde
open Spec

theorem mapM_some {α β : Type} {f : α → Option β} {g : α → β} : ∀ {L : List α},
    (∀ x ∈ L, f x = some (g x)) → L.mapM f = some (L.map g)
  | [], _ => by simp
  | x :: xs, h => by
    rw [List.mapM_cons, h x (by simp), mapM_some (fun y hy => h y (by simp [hy]))]
    rfl

theorem deNat_num {w n : Nat} (h : n < 2 ^ w) : deNat w (.num n) = some n := by
  rw [deNat, if_pos h]

theorem deBits_num {w : Nat} (b : BitVec w) : deBits w (.num b.toNat) = some b := by
  rw [deBits, deNat_num b.isLt]; simp

theorem deSeq_bits {w : Nat} (l : List (BitVec w)) :
    deSeq (deBits w) (.seq (l.map fun b => Value.num (BitVec.toNat b))) = some l := by
  rw [deSeq]
  induction l with
  | nil => rfl
  | cons x xs ih =>
    rw [List.map_cons, List.mapM_cons, deBits_num, ih]; rfl

theorem deDifInt_ser (cfg : Cfg) {d : DifIntVec} (h : d.count < 2 ^ cfg.usizeBits) :
    deDifInt cfg (serDifInt d) = some d := by
  have hf : fields ["count", "last", "buf"] (serDifInt d) =
    some [some (.num d.count), some (.num d.last.toNat), some (serVarInt d.buf)] := rfl
  rw [deDifInt, hf]
  change (do
    let count ← deNat cfg.usizeBits (.num d.count)
    let last ← deBits 32 (.num d.last.toNat)
    let buf ← deSeq (deBits 8) (.seq (d.buf.map fun b => Value.num (BitVec.toNat b)))
    pure (⟨count, last, buf⟩ : DifIntVec)) = _
  rw [deNat_num h, deBits_num, deSeq_bits]; rfl

theorem deRegisters_ser (cfg : Cfg) {r : Registers} (h : r.count < 2 ^ cfg.usizeBits)
    (h2 : r.zeros < 2 ^ cfg.usizeBits) : deRegisters cfg (serRegisters r) = some r := by
  have hf : fields ["buf", "count", "zeros"] (serRegisters r) =
    some [some (.seq (r.buf.map fun w => .num w.toNat)), some (.num r.count),
      some (.num r.zeros)] := rfl
  rw [deRegisters, hf]
  change (do
    let buf ← deSeq (deBits 32) (.seq (r.buf.map fun b => Value.num (BitVec.toNat b)))
    let count ← deNat cfg.usizeBits (.num r.count)
    let zeros ← deNat cfg.usizeBits (.num r.zeros)
    pure (⟨buf, count, zeros⟩ : Registers)) = _
  rw [deNat_num h, deNat_num h2, deSeq_bits]; rfl

theorem deOption_ser {α : Type} {f : α → Value} {g : Value → Option α} (o : Option α)
    (h : ∀ a, o = some a → g (f a) = some a) : deOption g (some (serOption f o)) = some o := by
  cases o with
  | none => rfl
  | some a => simp [serOption, deOption, h a rfl]

/-- Deserialising what was serialised gives the same sketch back, except for the builder and the
order in which the model stores the temporary set. -/
theorem dePlus_serPlus' {I : Type} (cfg : Cfg) {c : Codec I} (ord : IterOrder)
    {s : Plus I} {b : Option (I → U64)} (hc : c.de (c.ser s.builder) = b) (hp : s.precision < 256) (h1 : s.counts.1 < 2 ^ cfg.usizeBits)
    (h2 : s.counts.2.1 < 2 ^ cfg.usizeBits) (h3 : s.counts.2.2 < 2 ^ cfg.usizeBits)
    (h4 : s.sparse.count < 2 ^ cfg.usizeBits)
    (h5 : ∀ r, s.registers = some r → r.count < 2 ^ cfg.usizeBits ∧ r.zeros < 2 ^ cfg.usizeBits) :
    dePlus cfg c (serPlus c ord s) =
      b.map fun b => { s with builder := b, tmpset := (ord.apply s.tmpset).foldl hashSetInsert [] } := by
  have hf : fields ["builder", "precision", "counts", "tmpset", "sparse", "registers", "phantom"]
      (serPlus c ord s) = some [some (c.ser s.builder), some (.num s.precision),
        some (.seq [.num s.counts.1, .num s.counts.2.1, .num s.counts.2.2]),
        some (.seq ((ord.apply s.tmpset).map fun x => .num x.toNat)),
        some (serDifInt s.sparse), some (serOption serRegisters s.registers), some .unit] := rfl
  rw [dePlus, hf]
  change (do
    let builder ← c.de (c.ser s.builder)
    let precision ← deNat 8 (.num s.precision)
    let counts ← (do pure (← deNat cfg.usizeBits (.num s.counts.1),
      ← deNat cfg.usizeBits (.num s.counts.2.1), ← deNat cfg.usizeBits (.num s.counts.2.2)))
    let tmp ← deSeq (deBits 32) (.seq ((ord.apply s.tmpset).map fun x => Value.num (BitVec.toNat x)))
    let sparse ← deDifInt cfg (serDifInt s.sparse)
    let registers ← deOption (deRegisters cfg) (some (serOption serRegisters s.registers))
    let _ ← deUnit .unit
    pure (⟨builder, precision, counts, tmp.foldl hashSetInsert [], sparse, registers⟩ : Plus I)) = _
  rw [hc, deNat_num hp, deNat_num h1, deNat_num h2, deNat_num h3, deSeq_bits, deDifInt_ser cfg h4,
    deOption_ser _ (fun r hr => deRegisters_ser cfg (h5 r hr).1 (h5 r hr).2)]
  cases b <;> rfl

/-- Deserialising what was serialised gives the same sketch back, except for the order in which the
model stores the temporary set. -/
theorem dePlus_serPlus {I : Type} (cfg : Cfg) {c : Codec I} (ord : IterOrder)
    {s : Plus I} (hc : c.RoundTrips s.builder) (hp : s.precision < 256) (h1 : s.counts.1 < 2 ^ cfg.usizeBits)
    (h2 : s.counts.2.1 < 2 ^ cfg.usizeBits) (h3 : s.counts.2.2 < 2 ^ cfg.usizeBits)
    (h4 : s.sparse.count < 2 ^ cfg.usizeBits)
    (h5 : ∀ r, s.registers = some r → r.count < 2 ^ cfg.usizeBits ∧ r.zeros < 2 ^ cfg.usizeBits) :
    dePlus cfg c (serPlus c ord s) =
      some { s with tmpset := (ord.apply s.tmpset).foldl hashSetInsert [] } :=
  dePlus_serPlus' cfg ord hc hp h1 h2 h3 h4 h5

theorem dePF_serPF' {I : Type} (cfg : Cfg) {c : Codec I}
    {s : PF I} {b : Option (I → U64)} (hc : c.de (c.ser s.builder) = b) (hp : s.precision < 256) (h1 : s.count < 2 ^ cfg.usizeBits)
    (h2 : s.registers.count < 2 ^ cfg.usizeBits) (h3 : s.registers.zeros < 2 ^ cfg.usizeBits) :
    dePF cfg c (serPF c s) = b.map fun b => { s with builder := b } := by
  have hf : fields ["builder", "count", "precision", "registers", "phantom"] (serPF c s) =
      some [some (c.ser s.builder), some (.num s.count), some (.num s.precision),
        some (serRegisters s.registers), some .unit] := rfl
  rw [dePF, hf]
  change (do
    let builder ← c.de (c.ser s.builder)
    let count ← deNat cfg.usizeBits (.num s.count)
    let precision ← deNat 8 (.num s.precision)
    let registers ← deRegisters cfg (serRegisters s.registers)
    let _ ← deUnit .unit
    pure (⟨builder, count, precision, registers⟩ : PF I)) = _
  rw [hc, deNat_num h1, deNat_num (w := 8) hp, deRegisters_ser cfg h2 h3]
  cases b <;> rfl

theorem dePF_serPF {I : Type} (cfg : Cfg) {c : Codec I}
    {s : PF I} (hc : c.RoundTrips s.builder) (hp : s.precision < 256) (h1 : s.count < 2 ^ cfg.usizeBits)
    (h2 : s.registers.count < 2 ^ cfg.usizeBits) (h3 : s.registers.zeros < 2 ^ cfg.usizeBits) :
    dePF cfg c (serPF c s) = some s :=
  dePF_serPF' cfg hc hp h1 h2 h3

end Serde

namespace Plus
open Spec
variable {I : Type}

/-- A reloaded sketch represents the same set. -/
theorem reload_ok (cfg : Cfg) (hcfg : 32 ≤ cfg.usizeBits) {c : Serde.Codec I}
    (ord : IterOrder) {p : Nat} {s : Plus I} (hc : c.RoundTrips s.builder) {S : Finset Nat} (h : Rep p s S) :
    ∃ s', Serde.dePlus cfg c (Serde.serPlus c ord s) = some s' ∧ Rep p s' S ∧
      s'.builder = s.builder := by
  obtain ⟨hb, h⟩ := h
  obtain ⟨hb1, hb2⟩ := pow_bounds cfg hcfg hb.hp2
  have hcap := capacity_le hb.hp2
  have hp2 := hb.hp2
  have hcounts := hb.counts
  have hcount : s.sparse.count < 2 ^ cfg.usizeBits := by
    rcases h with ⟨L, hs, hl, ht⟩ | ⟨r, hd⟩
    · rw [hs.enc.count_eq]
      have := length_le_len hs.enc
      omega
    · rw [hd.sparse]; simp only [DifIntVec.new]; omega
  refine ⟨_, Serde.dePlus_serPlus cfg ord hc (by rw [hb.prec]; omega)
    (by rw [hcounts]; simp only; omega) (by rw [hcounts]; simp only; omega) (by rw [hcounts]; simp only; omega)
    hcount ?_, ⟨⟨hb.hp1, hb.hp2, hb.prec, hb.counts, hb.hashes⟩, ?_⟩, rfl⟩
  · intro r hr
    rcases h with ⟨L, hs, hl, ht⟩ | ⟨r', hd⟩
    · rw [hs.regs] at hr; cases hr
    · rw [hd.regs] at hr
      cases hr
      have := hd.rep.zeros_le
      rw [hd.rep.count_eq]
      omega
  · have hperm := ord.perm s.tmpset
    obtain ⟨h1, h2, h3⟩ := foldl_hashSetInsert (ord.apply s.tmpset) [] (by simp)
    rcases h with ⟨L, hs, hl, ht⟩ | ⟨r, hd⟩
    · left
      refine ⟨L, ⟨hs.regs, hs.enc, hs.sorted, h1, ?_⟩, hl, ?_⟩
      · intro n
        rw [hs.mem]
        simp only [List.mem_map, h2, List.not_mem_nil, false_or, hperm.mem_iff]
      · rw [hperm.length_eq] at h3
        simp only [List.length_nil, Nat.zero_add] at h3
        simp only
        omega
    · right
      refine ⟨r, ⟨hd.regs, hd.rep, ?_, hd.sparse, hd.big⟩⟩
      have : ord.apply s.tmpset = [] := by rw [hd.tmp] at hperm ⊢; exact hperm.eq_nil
      simp only [this, List.foldl_nil]

end Plus

namespace PF
open Spec
variable {I : Type}

theorem reload_ok (cfg : Cfg) {c : Serde.Codec I} {p : Nat} (hcfg : p < cfg.usizeBits)
    {s : PF I} (hc : c.RoundTrips s.builder) {S : Finset Nat} (h : Rep p s S) :
    Serde.dePF cfg c (Serde.serPF c s) = some s := by
  obtain ⟨hb1, hb2⟩ := pow_bounds cfg hcfg h.hp1 h.hp2
  have := h.rep.zeros_le
  have hp2 := h.hp2
  apply Serde.dePF_serPF cfg hc
  · rw [h.prec]; omega
  · rw [h.count]; omega
  · rw [h.rep.count_eq]; omega
  · omega

end PF
end HLL
