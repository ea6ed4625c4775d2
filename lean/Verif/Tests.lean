import Verif.Model.History
import Verif.Props.Log

/-!
# The repository's own unit tests, run on the model

These are tests, not proofs: each runs the model on the inputs of one unit test of `/repo/src` and
compares with the values that test asserts.  They check the hand translation of the code, as far as
the repository's tests go.  The assertions are evaluated while this file is compiled.

`PassThroughHasherBuilder` of the tests is the identity.  Where a test counts, the crate's own
logarithm is used for `f64::ln`.
-/

namespace HLL.Tests
open F64

def cfg : Cfg := Cfg.debug64
def ln : F64 → F64 := crateLn cfg
def thru : U64 → U64 := fun v => v

/-- `PassThroughHasherBuilder` is written as a unit struct. -/
def codec : Serde.Codec U64 := ⟨fun _ => .unit, fun _ => some thru⟩

/-- The outcome of a test: it ran without panic and all assertions hold. -/
abbrev Test := R Bool

def passes (t : Test) : Bool := match t with
  | .ok b => b
  | .error _ => false

/-- `x.trunc() as u64`, for finite `x ≥ 0`. -/
def trunc : F64 → Nat
  | .fin q => q.floor.toNat
  | _ => 2 ^ 64

/-- `(a - b).abs() <= e` in exact arithmetic, for finite `a`. -/
def near (a : F64) (b e : Rat) : Bool := match a with
  | .fin q => decide (q - b ≤ e ∧ b - q ≤ e)
  | _ => false

def newPlus (p : Nat) : R (Plus U64) := do
  match ← Plus.new cfg p thru with
  | .ok s => pure s
  | .error _ => .error .unwrapNone

def newPF (p : Nat) : R (PF U64) := do
  match ← PF.new cfg p thru with
  | .ok s => pure s
  | .error _ => .error .unwrapNone

def insertAll (s : Plus U64) (vs : List U64) : R (Plus U64) :=
  vs.foldlM (fun s v => Plus.insert cfg .id s v) s

def insertAllPF (s : PF U64) (vs : List U64) : R (PF U64) :=
  vs.foldlM (fun s v => PF.insert cfg s v) s

def getPlus (s : Plus U64) (i : Nat) : R U32 := do
  let r ← unwrap s.registers
  r.get cfg 6 i

/-! ## src/common.rs -/

/-- `test_registers_get_set` (src/common.rs:254-267), `test_registers_set_greater` (285-317). -/
def test_registers : Test := do
  let r0 ← Registers.withCount cfg 5 10
  let r1 ← r0.setGreater cfg 5 1 0
  let r2 ← r1.setGreater cfg 5 1 0b11
  let r3 ← r2.setGreater cfg 5 9 0x7
  let r4 ← r3.setGreater cfg 5 1 0b10
  let r5 ← r4.setGreater cfg 5 9 0x9
  pure (r0.buf.length = 2 ∧ r0.zeros = 10 ∧ r1.buf = [0, 0] ∧ r1.zeros = 10 ∧
    r2.buf = [0b1100000, 0] ∧ r2.zeros = 9 ∧ r3.buf = [0b1100000, 0x038000] ∧ r3.zeros = 8 ∧
    r4.buf = [0b1100000, 0x038000] ∧ r4.zeros = 8 ∧ r5.buf = [0b1100000, 0x048000] ∧ r5.zeros = 8)
#guard passes test_registers

/-- `test_registers_get_set_plus` (src/common.rs:270-283), `test_registers_set_greater_plus`
(320-351). -/
def test_registers_plus : Test := do
  let r0 ← Registers.withCount cfg 6 10
  let r1 ← r0.setGreater cfg 6 1 0
  let r2 ← r1.setGreater cfg 6 1 0b11
  let r3 ← r2.setGreater cfg 6 9 0x7
  let r4 ← r3.setGreater cfg 6 1 0b10
  let r5 ← r4.setGreater cfg 6 9 0x9
  pure (r0.buf.length = 2 ∧ r0.zeros = 10 ∧ r1.buf = [0, 0] ∧ r1.zeros = 10 ∧
    r2.buf = [0b11000000, 0] ∧ r2.zeros = 9 ∧ r3.buf = [0b11000000, 0x07000000] ∧ r3.zeros = 8 ∧
    r4.buf = [0b11000000, 0x07000000] ∧ r4.zeros = 8 ∧ r5.buf = [0b11000000, 0x09000000] ∧
    r5.zeros = 8)
#guard passes test_registers_plus

/-- `test_extract` (src/common.rs:354-370). -/
def test_extract : Test := do
  let check (hi lo expect : Nat) : R Bool := do
    let a ← extract64 cfg 0b0010101110101101 hi lo
    let b ← extract32 cfg 0b0010101110101101 hi lo
    pure (a.toNat = expect ∧ b.toNat = expect)
  pure ((← check 7 3 0b0101) && (← check 8 3 0b10101) && (← check 15 14 0) && (← check 15 13 1))
#guard passes test_extract

/-! ## src/encoding.rs -/

/-- `test_varint_encode` (src/encoding.rs:186-209). -/
def test_varint_encode : Bool :=
  let nums := [7, 128, 300, 127, 255, 0xffffffff].foldl VarIntVec.push VarIntVec.new
  nums = [7, 128, 1, 172, 2, 127, 255, 1, 255, 255, 255, 255, 15]
#guard test_varint_encode

/-- The numbers of `test_varint_decode` (src/encoding.rs:212-224) and `test_difvarint_decode`
(251-263). -/
def nums : List U32 := (List.range' 1 255 ++ List.range' 16400 100).map (BitVec.ofNat 32)

def test_varint_decode : Test := do
  let out ← VarIntVec.toList cfg (nums.foldl VarIntVec.push VarIntVec.new)
  pure (out = nums)
#guard passes test_varint_decode

/-- `test_difvarint_encode` (src/encoding.rs:227-248). -/
def test_difvarint_encode : Test := do
  let d ← [7, 128, 300, 555, 556].foldlM (fun d v => DifIntVec.push cfg d v) DifIntVec.new
  pure (d.buf = [7, 121, 172, 1, 255, 1, 1])
#guard passes test_difvarint_encode

def test_difvarint_decode : Test := do
  let d ← nums.foldlM (fun d v => DifIntVec.push cfg d v) DifIntVec.new
  let out ← d.toList cfg
  pure (out = nums)
#guard passes test_difvarint_decode

/-! ## src/hyperloglog.rs -/

/-- `test_insert` (src/hyperloglog.rs:247-290). -/
def test_insert : Test := do
  let s ← newPF 16
  let s1 ← insertAllPF s [0x0000000000010fff]
  let s2 ← insertAllPF s1 [0x000000000002ffff]
  let s3 ← insertAllPF s2 [0x0000000000030000]
  let s4 ← insertAllPF s3 [0x0000000000030001]
  let s5 ← insertAllPF s4 [0x00000000ff037000]
  let s6 ← insertAllPF s5 [0x00000000ff030800]
  let t ← newPF 4
  let t1 ← insertAllPF t [0x000000001fffffff]
  let t2 ← insertAllPF t1 [0x00000000ffffffff]
  let t3 ← insertAllPF t2 [0x0000000000ffffff]
  pure ((← s1.registers.get cfg 5 1) = 5 ∧ (← s2.registers.get cfg 5 2) = 1 ∧
    (← s3.registers.get cfg 5 3) = 17 ∧ (← s4.registers.get cfg 5 3) = 17 ∧
    (← s5.registers.get cfg 5 0xff03) = 2 ∧ (← s6.registers.get cfg 5 0xff03) = 5 ∧
    (← t1.registers.get cfg 5 1) = 1 ∧ (← t2.registers.get cfg 5 0xf) = 1 ∧
    (← t3.registers.get cfg 5 0) = 5)
#guard passes test_insert

/-- `test_count` (src/hyperloglog.rs:293-309). -/
def test_count : Test := do
  let s ← newPF 16
  let c0 ← PF.estimate cfg ln s
  let s ← insertAllPF s [0x10fff, 0x20fff, 0x30fff, 0x40fff, 0x50fff, 0x50fff]
  let c1 ← PF.estimate cfg ln s
  pure (c0 = fin 0 ∧ trunc c1 = 5)
#guard passes test_count

/-- `test_merge` (src/hyperloglog.rs:312-361). -/
def test_merge : Test := do
  let s ← newPF 16
  let s ← insertAllPF s [0x101ff, 0x202ff, 0x304ff, 0x40fff, 0x50fff, 0x60fff]
  let before ← [1, 2, 3, 4, 5, 6].mapM (s.registers.get cfg 5)
  let err ← newPF 9
  let (s, e) ← PF.merge cfg s err
  let other ← newPF 16
  let s ← insertAllPF s [0x404ff, 0x502ff, 0x601ff]
  let (other, ok) ← PF.merge cfg other s
  let c ← PF.estimate cfg ln other
  let after ← [1, 2, 3, 4, 5, 6].mapM (s.registers.get cfg 5)
  pure (before = [8, 7, 6, 5, 5, 5] ∧ (e matches .error .IncompatiblePrecision) ∧
    (ok matches .ok ()) ∧ trunc c = 6 ∧ after = [8, 7, 6, 6, 7, 8])
#guard passes test_merge

/-- `test_serialization` (src/hyperloglog.rs:364-390), the part with the pass-through hasher. -/
def test_serialization : Test := do
  let s ← newPF 16
  let s ← insertAllPF s [0x10fff, 0x20fff, 0x30fff, 0x40fff, 0x50fff, 0x50fff]
  let c0 ← PF.estimate cfg ln s
  let d ← unwrap (Serde.dePF cfg codec (Serde.serPF codec s))
  let c1 ← PF.estimate cfg ln d
  let d ← insertAllPF d [0x60fff]
  let c2 ← PF.estimate cfg ln d
  pure (trunc c0 = 5 ∧ trunc c1 = 5 ∧ trunc c2 = 6)
#guard passes test_serialization

/-! ## src/hyperloglogplus.rs -/

/-- `test_normal_insert` (src/hyperloglogplus.rs:577-626). -/
def test_normal_insert : Test := do
  let s ← Plus.sparseToNormal cfg (← newPlus 16)
  let s1 ← insertAll s [0x00010fffffffffff]
  let s2 ← insertAll s1 [0x0002ffffffffffff]
  let s3 ← insertAll s2 [0x0003000000000000]
  let s4 ← insertAll s3 [0x0003000000000001]
  let s5 ← insertAll s4 [0xff03700000000000]
  let s6 ← insertAll s5 [0xff03080000000000]
  let t ← Plus.sparseToNormal cfg (← newPlus 4)
  let t1 ← insertAll t [0x1fffffffffffffff]
  let t2 ← insertAll t1 [0xffffffffffffffff]
  let t3 ← insertAll t2 [0x00ffffffffffffff]
  pure (s.registers.isSome ∧ (← getPlus s1 1) = 5 ∧ (← getPlus s2 2) = 1 ∧ (← getPlus s3 3) = 49 ∧
    (← getPlus s4 3) = 49 ∧ (← getPlus s5 0xff03) = 2 ∧ (← getPlus s6 0xff03) = 5 ∧
    (← getPlus t1 1) = 1 ∧ (← getPlus t2 0xf) = 1 ∧ (← getPlus t3 0) = 5)
#guard passes test_normal_insert

/-- `test_sparse_encode_hash` (src/hyperloglogplus.rs:629-652). -/
def test_sparse_encode_hash : Test := do
  let i1 := 0b0000000000111000000000000
  let c1 ← Plus.encodeHash cfg 14 (BitVec.ofNat 64 (i1 * 2 ^ 39 + 0b1101))
  let i2 := 0b0000000000111000000000010
  let c2 ← Plus.encodeHash cfg 14 (BitVec.ofNat 64 (i2 * 2 ^ 39 + 0b1101))
  pure (c1.toNat = i1 * 2 ^ 7 + 36 * 2 + 1 ∧ c2.toNat = i2 * 2)
#guard passes test_sparse_encode_hash

/-- `test_sparse_decode_hash` (src/hyperloglogplus.rs:655-685). -/
def test_sparse_decode_hash : Test := do
  let check (h : U64) (zeros : U32) (idx : Nat) : R Bool := do
    let (z, i) ← Plus.decodeHash cfg 8 (← Plus.encodeHash cfg 8 h)
    pure (z = zeros ∧ i = idx)
  pure ((← check 0xffffff8000000000 1 0xff) && (← check 0xff00000000000000 57 0xff) &&
    (← check 0xff30000000000000 3 0xff) && (← check 0xaa10000000000000 4 0xaa) &&
    (← check 0xaa0f000000000000 5 0xaa))
#guard passes test_sparse_decode_hash

/-- `test_sparse_merge_sparse` (src/hyperloglogplus.rs:688-745). -/
def test_sparse_merge_sparse : Test := do
  let s ← newPlus 16
  let c0 ← Plus.encodeHash cfg 16 0xf000017000000000
  let c1 ← Plus.encodeHash cfg 16 0x000fff8f00000000
  let c2 ← Plus.encodeHash cfg 16 0x0f00017000000000
  let s1 ← insertAll s [0xf000017000000000]
  let s2 ← insertAll s1 [0x000fff8f00000000]
  let s3 ← Plus.mergeSparse cfg .id s2
  let s4 ← insertAll s3 [0x0f00017000000000]
  let s5 ← Plus.mergeSparse cfg .id s4
  pure (c0 ∈ s1.tmpset ∧ c1 ∈ s2.tmpset ∧ s2.tmpset.length = 2 ∧ s2.sparse.len = 0 ∧
    s3.sparse.count = 2 ∧ s3.tmpset.length = 0 ∧ (← s3.sparse.toList cfg) = [c1, c0] ∧
    c2 ∈ s4.tmpset ∧ s5.sparse.count = 3 ∧ s5.tmpset.length = 0 ∧
    (← s5.sparse.toList cfg) = [c1, c2, c0])
#guard passes test_sparse_merge_sparse

/-- `test_sparse_merge_to_normal` (src/hyperloglogplus.rs:748-772). -/
def test_sparse_merge_to_normal : Test := do
  let s ← newPlus 7
  let s ← (List.range 102).foldlM (fun s i => do
    let s ← insertAll s [BitVec.ofNat 64 (i * 2 ^ 39)]
    let (s, _) ← Plus.count cfg ln .id s
    pure s) s
  let s ← insertAll s [1]
  let (t, _) ← Plus.count cfg ln .id s
  pure (s.registers.isNone ∧ t.registers.isSome ∧ t.tmpset.length = 0 ∧ t.sparse.len = 0)
#guard passes test_sparse_merge_to_normal

/-- `test_sparse_trigger_sparse_to_normal` (src/hyperloglogplus.rs:775-796). -/
def test_sparse_trigger_sparse_to_normal : Test := do
  let s ← newPlus 4
  let s ← insertAll s ((List.range 12).map fun i => BitVec.ofNat 64 (2 ^ i))
  let t ← insertAll s [BitVec.ofNat 64 (2 ^ 13)]
  pure (s.registers.isNone ∧ t.registers.isSome ∧ t.tmpset.length = 0 ∧ t.sparse.len = 0)
#guard passes test_sparse_trigger_sparse_to_normal

/-- `test_sparse_sparse_to_normal` (src/hyperloglogplus.rs:799-842). -/
def test_sparse_sparse_to_normal : Test := do
  let s ← newPlus 16
  let s ← insertAll s [0x00010fffffffffff]
  let (s, c0) ← Plus.count cfg ln .id s
  let s ← Plus.sparseToNormal cfg (← Plus.mergeSparse cfg .id s)
  let (s, c1) ← Plus.count cfg ln .id s
  let t ← newPlus 16
  let t ← insertAll t [0x00010fffffffffff, 0x0002ffffffffffff, 0x0003000000000000,
    0x0003000000000001, 0xff03700000000000, 0xff03080000000000]
  let t ← Plus.sparseToNormal cfg (← Plus.mergeSparse cfg .id t)
  let (t, c2) ← Plus.count cfg ln .id t
  pure (trunc c0 = 1 ∧ trunc c1 = 1 ∧ s.registers.isSome ∧ trunc c2 = 4 ∧ (← getPlus t 1) = 5 ∧
    (← getPlus t 2) = 1 ∧ (← getPlus t 3) = 49 ∧ (← getPlus t 0xff03) = 5)
#guard passes test_sparse_sparse_to_normal

/-- The five (six) hashes used by most tests. -/
def five : List U64 := [0x00010fffffffffff, 0x00020fffffffffff, 0x00030fffffffffff,
  0x00040fffffffffff, 0x00050fffffffffff, 0x00050fffffffffff]
def fiveMore : List U64 := [0x00060fffffffffff, 0x00070fffffffffff, 0x00080fffffffffff,
  0x00090fffffffffff, 0x000a0fffffffffff]

/-- `test_sparse_count` (src/hyperloglogplus.rs:845-875). -/
def test_sparse_count : Test := do
  let s ← insertAll (← newPlus 16) five
  let (s, _) ← Plus.count cfg ln .id s
  let codes ← s.sparse.toList cfg
  let expected ← five.mapM (Plus.encodeHash cfg 16)
  let (_, c) ← Plus.count cfg ln .id s
  pure (codes = expected.take 5 ∧ trunc c = 5)
#guard passes test_sparse_count

/-- `test_estimate_bias` (src/hyperloglogplus.rs:878-925). -/
def test_estimate_bias : Test := do
  let check (p : Nat) (raw : F64) (expect e : Rat) : R Bool := do
    let b ← Plus.estimateBias cfg p raw
    pure (near b expect e)
  pure ((← check 4 (ofDec 140988 4) (75988 / 10000) (1 / 10 ^ 5)) &&
    (← check 4 (ofDec 10 0) 10 (1 / 10 ^ 5)) &&
    (← check 4 (ofDec 80 0) (-17606 / 10000) (1 / 10 ^ 5)) &&
    (← check 16 (ofDec 553914373 4) (394169373 / 10000) (1 / 10 ^ 5)) &&
    (← check 18 (ofDec 275468768 3) (118181769 / 1000) (1 / 10 ^ 3)) &&
    (← check 18 (ofDec 587532522 3) (23922523 / 1000) (1 / 10 ^ 3)) &&
    (← check 18 (ofDec 1205430993 3) (-434006 / 1000) (1 / 10 ^ 3)) &&
    (← check 18 (ofDec 1251260649 3) (-479351 / 1000) (1 / 10 ^ 3)))
#guard passes test_estimate_bias

/-- `test_estimate_bias_count` (src/hyperloglogplus.rs:928-941). -/
def test_estimate_bias_count : Test := do
  let s ← Plus.sparseToNormal cfg (← newPlus 4)
  let s ← insertAll s ((List.range 10).map fun i => BitVec.ofNat 64 (i * 2 ^ 60 + 0xfffffffffffffff))
  let (_, c) ← Plus.count cfg ln .id s
  pure (near c 10 1)
#guard passes test_estimate_bias_count

/-- `test_merge_error` (src/hyperloglogplus.rs:944-954). -/
def test_merge_error : Test := do
  let (_, e) ← Plus.merge cfg .id .id (← newPlus 16) (← newPlus 12)
  pure (e matches .error .IncompatiblePrecision)
#guard passes test_merge_error

/-- The common part of `test_merge_both_sparse` (src/hyperloglogplus.rs:957-1003),
`test_merge_both_normal` (1006-1055) and `test_merge_sparse_to_normal` (1058-1106): `self` and
`other` start sparse or not, and stay so. -/
def test_merge_twice (selfSparse otherSparse : Bool) : Test := do
  let hll ← newPlus 16
  let other ← newPlus 16
  let hll ← if selfSparse then pure hll else Plus.sparseToNormal cfg hll
  let other ← if otherSparse then pure other else Plus.sparseToNormal cfg other
  let other ← insertAll other five
  let (other, c0) ← Plus.count cfg ln .id other
  let (hll, r0) ← Plus.merge cfg .id .id hll other
  let (hll, c1) ← Plus.count cfg ln .id hll
  let ok1 := hll.isSparse == selfSparse && other.isSparse == otherSparse
  let (hll, r1) ← Plus.merge cfg .id .id hll other
  let (hll, c2) ← Plus.count cfg ln .id hll
  let ok2 := hll.isSparse == selfSparse && other.isSparse == otherSparse
  let other ← insertAll other fiveMore
  let (other, c3) ← Plus.count cfg ln .id other
  let (hll, r2) ← Plus.merge cfg .id .id hll other
  let (hll, c4) ← Plus.count cfg ln .id hll
  let ok3 := hll.isSparse == selfSparse && other.isSparse == otherSparse
  pure (trunc c0 = 5 ∧ (r0 matches .ok ()) ∧ trunc c1 = 5 ∧ ok1 ∧ (r1 matches .ok ()) ∧
    trunc c2 = 5 ∧ ok2 ∧ trunc c3 = 10 ∧ (r2 matches .ok ()) ∧ trunc c4 = 10 ∧ ok3)
#guard passes (test_merge_twice true true)
#guard passes (test_merge_twice false false)
#guard passes (test_merge_twice false true)

/-- `test_merge_normal_to_sparse` (src/hyperloglogplus.rs:1109-1133). -/
def test_merge_normal_to_sparse : Test := do
  let hll ← newPlus 16
  let other ← insertAll (← Plus.sparseToNormal cfg (← newPlus 16)) five
  let (other, c0) ← Plus.count cfg ln .id other
  let (hll, r) ← Plus.merge cfg .id .id hll other
  let (hll, c1) ← Plus.count cfg ln .id hll
  pure (trunc c0 = 5 ∧ (r matches .ok ()) ∧ trunc c1 = 5 ∧ !hll.isSparse ∧ !other.isSparse)
#guard passes test_merge_normal_to_sparse

/-- `test_serialization` (src/hyperloglogplus.rs:1136-1178). -/
def test_serialization_plus : Test := do
  let hll ← insertAll (← newPlus 16) five
  let (hll, c0) ← Plus.count cfg ln .id hll
  let roundTrip (s : Plus U64) : R (F64 × F64) := do
    let d ← unwrap (Serde.dePlus cfg codec (Serde.serPlus codec .id s))
    let (d, a) ← Plus.count cfg ln .id d
    let d ← insertAll d [0x00060fffffffffff]
    let (_, b) ← Plus.count cfg ln .id d
    pure (a, b)
  let (a, b) ← roundTrip hll
  let hll ← Plus.sparseToNormal cfg hll
  let (hll, c1) ← Plus.count cfg ln .id hll
  let (a', b') ← roundTrip hll
  pure (trunc c0 = 5 ∧ trunc a = 5 ∧ trunc b = 6 ∧ trunc c1 = 5 ∧ trunc a' = 5 ∧ trunc b' = 6)
#guard passes test_serialization_plus

end HLL.Tests
