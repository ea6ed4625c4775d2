import Verif.Model.F64
import Verif.Model.Prim

/-!
# Model of `src/log.rs`: the logarithm used without `std`

`src/common.rs` calls this function instead of `f64::ln` when the feature `std` is off (src/common.rs:223-227);
only `HyperLogLogPF` exists in such a build (src/lib.rs:38-43).  The model works on the bits of the argument, as the code does.
-/

namespace HLL

namespace F64

/-- The 64 bits with the given sign, exponent field and fraction field. -/
def pack (s : Bool) (e m : Nat) : U64 := BitVec.ofNat 64 (s.toNat * 2 ^ 63 + e * 2 ^ 52 + m)

/-- Exponent field of the double `q`: 0 for subnormal numbers. -/
def expField (q : ℚ) : Nat :=
  if |q| < 2 ^ (-1022 : ℤ) then 0 else (Int.log 2 |q| + 1023).toNat

/-- Fraction field of the double `q`. -/
def fracField (q : ℚ) : Nat :=
  if |q| < 2 ^ (-1022 : ℤ) then ⌊|q| * 2 ^ (1074 : ℤ)⌋₊
  else ⌊|q| * 2 ^ (52 - Int.log 2 |q|)⌋₊ - 2 ^ 52

/-- `x.to_bits()`.  The model does not distinguish NaNs; `nanBits` is the bit pattern of the NaN in
question. -/
def toBits (nanBits : U64) : F64 → U64
  | nan => nanBits
  | inf b => pack b 2047 0
  | negZero => pack true 0 0
  | fin q => pack (decide (q < 0)) (expField q) (fracField q)

/-- `f64::from_bits(b)`. -/
def fromBits (b : U64) : F64 :=
  let s := b.msb
  let e : Nat := b.toNat / 2 ^ 52 % 2 ^ 11
  let m : Nat := b.toNat % 2 ^ 52
  if e = 2047 then (if m = 0 then inf s else nan)
  else
    let q : ℚ := if e = 0 then m * 2 ^ (-1074 : ℤ) else (2 ^ 52 + m) * 2 ^ ((e : ℤ) - 1075)
    if q = 0 then (if s then negZero else fin 0) else fin (if s then -q else q)

/-- `k as f64` for a signed integer `k`. -/
def ofInt (k : ℤ) : F64 := round false (k : ℚ)

end F64

/-- A result `z` of `i32` arithmetic: in range it is returned, otherwise it panics or wraps. -/
def ckI32 (cfg : Cfg) (z : Int) : R Int :=
  if -2 ^ 31 ≤ z ∧ z < 2 ^ 31 then .ok z
  else if cfg.overflowChecks then .error .overflow
  else .ok ((z + 2 ^ 31) % 2 ^ 32 - 2 ^ 31)

namespace Log
open F64

/-- `src/log.rs:66`: `LN2_HI`. -/
def LN2_HI : F64 := ofDec 693147180369123816490 21
/-- `src/log.rs:67`: `LN2_LO`. -/
def LN2_LO : F64 := ofDec 190821492927058770002 30
/-- `src/log.rs:68`: `LG1`. -/
def LG1 : F64 := ofDec 6666666666666735130 19
/-- `src/log.rs:69`: `LG2`. -/
def LG2 : F64 := ofDec 3999999999940941908 19
/-- `src/log.rs:70`: `LG3`. -/
def LG3 : F64 := ofDec 2857142874366239149 19
/-- `src/log.rs:71`: `LG4`. -/
def LG4 : F64 := ofDec 2222219843214978396 19
/-- `src/log.rs:72`: `LG5`. -/
def LG5 : F64 := ofDec 1818357216161805012 19
/-- `src/log.rs:73`: `LG6`. -/
def LG6 : F64 := ofDec 1531383769920937332 19
/-- `src/log.rs:74`: `LG7`. -/
def LG7 : F64 := ofDec 1479819860511658591 19

/-- `src/log.rs:110-119`: the value for the reduced argument `x` and the exponent `k`. -/
def kernel (x : F64) (k : Int) : F64 :=
  let f := sub x (ofDec 10 1)
  let hfsq := mul (mul (ofDec 5 1) f) f
  let s := div f (add (ofDec 20 1) f)
  let z := mul s s
  let w := mul z z
  let t1 := mul w (add LG2 (mul w (add LG4 (mul w LG6))))
  let t2 := mul z (add LG1 (mul w (add LG3 (mul w (add LG5 (mul w LG7))))))
  let r := add t2 t1
  let dk := ofInt k
  add (add (sub (add (mul s (add hfsq r)) (mul dk LN2_LO)) hfsq) f) (mul dk LN2_HI)

/-- `src/log.rs:103-119`: the reduction of the argument with bits `ui`, high word `hx`. -/
def reduce (cfg : Cfg) (ui : U64) (hx : U32) (k : Int) : R F64 := do
  let d ← subU32 cfg 0x3ff00000#32 0x3fe6a09e#32
  let hx ← addU32 cfg hx d
  let e ← ckI32 cfg ((hx >>> 20).toInt - 0x3ff)
  let k ← ckI32 cfg (k + e)
  let hx ← addU32 cfg (hx &&& 0x000fffff#32) 0x3fe6a09e#32
  let ui := (hx.setWidth 64 <<< 32) ||| (ui &&& 0xffffffff#64)
  pure (kernel (fromBits ui) k)

/-- `src/log.rs:77-120`: `log(x)`.  `nanBits` are the bits of `x` if it is NaN, see `toBits`. -/
def log (cfg : Cfg) (nanBits : U64) (x : F64) : R F64 := do
  let x1p54 := fromBits 0x4350000000000000#64
  let ui := toBits nanBits x
  let hx : U32 := (ui >>> 32).setWidth 32
  let k : Int := 0
  if hx < 0x00100000#32 ∨ hx >>> 31 ≠ 0#32 then
    if ui <<< 1 = 0#64 then
      pure (div (neg (ofDec 10 1)) (mul x x))
    else if hx >>> 31 ≠ 0#32 then
      pure (div (sub x x) (ofDec 0 1))
    else do
      let k ← ckI32 cfg (k - 54)
      let x := mul x x1p54
      let ui := toBits nanBits x
      let hx : U32 := (ui >>> 32).setWidth 32
      reduce cfg ui hx k
  else if 0x7ff00000#32 ≤ hx then
    pure x
  else if hx = 0x3ff00000#32 ∧ ui <<< 32 = 0#64 then
    pure (fin 0)
  else
    reduce cfg ui hx k

end Log

end HLL
