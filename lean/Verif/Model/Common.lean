import Verif.Model.F64
import Verif.Model.Registers

/-! # Model of the estimators shared by both sketches: `src/common.rs` lines 111-217 -/

namespace HLL

/-- `HyperLogLogError` (src/lib.rs:61-65). -/
inductive HyperLogLogError where
  | InvalidPrecision
  | IncompatiblePrecision
  deriving DecidableEq, Repr

namespace Common
open F64

/-- The double `1.0`. -/
def one : F64 := ofNat 1

/-- `1.0 / (1u64 << value) as f64` (src/common.rs:157, 173). -/
def invPow (cfg : Cfg) (value : U32) : R F64 := do
  let b ← shl cfg 1#64 value.toNat
  pure (div one (ofNat b.toNat))

/-- The lookup table `RAW` of feature `const-loop` (src/common.rs:118-141): it has `1 << 6 = 64`
entries with `std` (src/common.rs:140-141) and `1 << 5 = 32` without (src/common.rs:137-138), entry
`i` being `1.0 / (1u64 << i) as f64`.  It is a compile-time constant, and `i < 64`, so the shift
cannot overflow. -/
def RAW (cfg : Cfg) : List F64 :=
  (List.range (if cfg.std then 64 else 32)).map fun i => div one (ofNat ((1#64 <<< i : U64).toNat))

/-- `alpha` (src/common.rs:197-204). -/
def alpha (count : Nat) : F64 :=
  match count with
  | 16 => ofDec 673 3
  | 32 => ofDec 697 3
  | 64 => ofDec 709 3
  | _ => div (ofDec 7213 4) (add one (div (ofDec 1079 3) (ofNat count)))

/-- `registers.map(..).sum()`: left-to-right summation from `0.0` or, in newer releases of the
standard library, from `-0.0` (src/common.rs:173 and 185; `f64: Sum`). -/
def sumF (cfg : Cfg) (xs : List F64) : F64 :=
  xs.foldl add (if cfg.sumFromNegZero then negZero else fin 0)

/-- The terms of the sum in `estimate_raw_plus`: computed (src/common.rs:173), or looked up in
`RAW` with feature `const-loop` (src/common.rs:185). -/
def terms (cfg : Cfg) (registers : List U32) : R (List F64) :=
  if cfg.constLoop then registers.mapM fun v => index (RAW cfg) v.toNat
  else registers.mapM (invPow cfg)

/-- `alpha(count) * (count * count) as f64 / raw` (src/common.rs:161, 175, 187). -/
def finishRaw (cfg : Cfg) (count : Nat) (raw : F64) : R F64 := do
  let c2 ← mulUsize cfg count count
  pure (div (mul (alpha count) (ofNat c2)) raw)

/-- `estimate_raw_plus` (src/common.rs:166-188, both feature variants). -/
def estimateRawPlus (cfg : Cfg) (registers : List U32) (count : Nat) : R F64 := do
  let ts ← terms cfg registers
  finishRaw cfg count (sumF cfg ts)

/-- Loop of `estimate_raw` (src/common.rs:154-159). -/
def estimateRawLoop (cfg : Cfg) : List U32 → F64 × Nat → R (F64 × Nat)
  | [], acc => pure acc
  | v :: vs, (raw, zeros) => do
    let t ← invPow cfg v
    let zeros ← addUsize cfg zeros (if v = 0#32 then 1 else 0)
    estimateRawLoop cfg vs (add raw t, zeros)

/-- `estimate_raw` (src/common.rs:150-164); not called by the crate itself. -/
def estimateRaw (cfg : Cfg) (registers : List U32) (count : Nat) : R (F64 × Nat) := do
  let (raw, zeros) ← estimateRawLoop cfg registers (fin 0, 0)
  let raw ← finishRaw cfg count raw
  pure (raw, zeros)

/-- `linear_count` (src/common.rs:192-194).  `ln` is `f64::ln` (src/common.rs:217-221) or the
crate's own logarithm without `std` (src/common.rs:223-227). -/
def linearCount (ln : F64 → F64) (count zeros : Nat) : F64 :=
  mul (ofNat count) (ln (div (ofNat count) (ofNat zeros)))

/-- `register_count` (src/common.rs:207-209). -/
def registerCount (cfg : Cfg) (precision : Nat) : R Nat := shlUsizeOne cfg precision

end Common

end HLL
