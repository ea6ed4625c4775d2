import Verif.Model.Common

/-! # Model of `src/hyperloglog.rs` -/

namespace HLL

/-- `HyperLogLogPF<H, B>` (src/hyperloglog.rs:45-55); `I`, `builder` as in `Plus`. -/
structure PF (I : Type) where
  builder : I → U64
  count : Nat
  precision : Nat
  registers : Registers

namespace PF

/-- `MIN_PRECISION` (src/hyperloglog.rs:63). -/
def MIN_PRECISION : Nat := 4
/-- `MAX_PRECISION` (src/hyperloglog.rs:65). -/
def MAX_PRECISION : Nat := 16
/-- `Registers::SIZE` (src/common.rs:102). -/
def SIZE : Nat := 5

variable {I : Type}

/-- `new` (src/hyperloglog.rs:68-84). -/
def new (cfg : Cfg) (precision : Nat) (builder : I → U64) :
    R (Except HyperLogLogError (PF I)) :=
  if precision < MIN_PRECISION ∨ precision > MAX_PRECISION then
    pure (.error .InvalidPrecision)
  else do
    let count ← Common.registerCount cfg precision
    let registers ← Registers.withCount cfg SIZE count
    pure (.ok { builder := builder, count := count, precision := precision,
                registers := registers })

/-- The loop of `merge` (src/hyperloglog.rs:101-103), from index `i`. -/
def mergeRegs (cfg : Cfg) : (i : Nat) → List U32 → Registers → R Registers
  | _, [], r => pure r
  | i, v :: vs, r => do
    let r ← r.setGreater cfg SIZE i v
    mergeRegs cfg (i + 1) vs r

/-- `merge` (src/hyperloglog.rs:89-106).  `other` may have another builder and another type of
values. -/
def merge {J : Type} (cfg : Cfg) (s : PF I) (other : PF J) : R (PF I × Except HyperLogLogError Unit) :=
  if s.precision ≠ other.precision then
    pure (s, .error .IncompatiblePrecision)
  else do
    let registers ← mergeRegs cfg 0 (other.registers.iter SIZE) s.registers
    pure ({ s with registers := registers }, .ok ())

/-- `insert_impl` (src/hyperloglog.rs:117-139) on an already computed 64-bit hash. -/
def insertHash (cfg : Cfg) (s : PF I) (hash64 : U64) : R (PF I) := do
  let hash : U32 := hash64.setWidth 32
  let k ← subU8 cfg 32 s.precision
  let idx ← shr cfg hash k
  let a ← shl cfg hash s.precision
  let k ← subU8 cfg s.precision 1
  let b ← shl cfg 1#32 k
  let hash := a ||| b
  let zeros : U32 := BitVec.ofNat 32 (1 + leadingZeros hash)
  let registers ← s.registers.setGreater cfg SIZE (idx.toNat % 2 ^ cfg.usizeBits) zeros
  pure { s with registers := registers }

/-- `insert_impl` (src/hyperloglog.rs:117-139). -/
def insertImpl (cfg : Cfg) (s : PF I) (value : I) : R (PF I) :=
  insertHash cfg s (s.builder value)

/-- `insert_any` (src/hyperloglog.rs:109-114). -/
def insertAny (cfg : Cfg) (s : PF I) (value : I) : R (PF I) := insertImpl cfg s value
/-- `HyperLogLog::add` (src/hyperloglog.rs:165-167). -/
def add (cfg : Cfg) (s : PF I) (value : I) : R (PF I) := insertImpl cfg s value
/-- `HyperLogLog::insert` (src/hyperloglog.rs:170-176). -/
def insert (cfg : Cfg) (s : PF I) (value : I) : R (PF I) := insertImpl cfg s value

/-- `count` (src/hyperloglog.rs:179-197).  It takes `&mut self` but does not modify it. -/
def estimate (cfg : Cfg) (ln : F64 → F64) (s : PF I) : R F64 := do
  let raw ← Common.estimateRawPlus cfg (s.registers.iter SIZE) s.count
  let zeros := s.registers.zeros
  let b ← shl cfg 1#64 32
  let two32 := F64.ofNat b.toNat
  if F64.le raw (F64.mul (F64.ofDec 25 1) (F64.ofNat s.count)) ∧ zeros ≠ 0 then
    pure (Common.linearCount ln s.count zeros)
  else if F64.gt raw (F64.div two32 (F64.ofNat 30)) then
    pure (F64.mul (F64.mul (F64.neg Common.one) two32)
      (ln (F64.sub Common.one (F64.div raw two32))))
  else pure raw

end PF

end HLL
