import Mathlib.Data.Int.Log
import Mathlib.Data.Rat.Floor

/-!
# Model of Rust's `f64`: IEEE-754 binary64 at the level of values

Rust's `f64` operations `+ - * /`, comparisons, integer-to-float casts and decimal literals are
IEEE-754 binary64 with rounding to nearest, ties to even.  A finite double is represented by
its rational value (the two zeros are kept apart); NaNs are not distinguished.
-/

namespace HLL

/-- A double: NaN, `±∞`, `-0.0`, or a finite value (`fin 0` is `+0.0`). -/
inductive F64 where
  | nan
  | inf (neg : Bool)
  | negZero
  | fin (q : ℚ)
  deriving DecidableEq, Repr

namespace F64

section Rounding
variable {K : Type*} [Field K] [LinearOrder K] [FloorRing K]

/-- Nearest integer, ties to even. -/
def rne (x : K) : ℤ :=
  if x - ⌊x⌋ < 1 / 2 then ⌊x⌋
  else if 1 / 2 < x - ⌊x⌋ then ⌊x⌋ + 1
  else if ⌊x⌋ % 2 = 0 then ⌊x⌋ else ⌊x⌋ + 1

/-- Exponent of the unit in the last place used to round `x`: 53 significant bits, but never
below the smallest subnormal `2^-1074`. -/
def ulpExp (x : K) : ℤ := max (Int.log 2 |x| - 52) (-1074)

/-- `x` rounded to a 53-bit binary floating point number with unbounded upper exponent range. -/
def rnd (x : K) : ℚ := (rne (x / 2 ^ ulpExp x) : ℚ) * 2 ^ ulpExp x

/-- The double nearest to `x`.  Results of magnitude `≥ 2^1024` overflow to infinity; if the result
is zero its sign is `zneg`. -/
def round (zneg : Bool) (x : K) : F64 :=
  if (2 : ℚ) ^ 1024 ≤ |rnd x| then inf (decide (x < 0))
  else if rnd x = 0 then (if zneg then negZero else fin 0)
  else fin (rnd x)

end Rounding

/-- Numeric value of a finite double (0 for the others). -/
def val : F64 → ℚ
  | fin q => q
  | _ => 0

/-- Sign bit. -/
def sign : F64 → Bool
  | nan => false
  | inf b => b
  | negZero => true
  | fin q => decide (q < 0)

/-- `-x`. -/
def neg : F64 → F64
  | nan => nan
  | inf b => inf (!b)
  | negZero => fin 0
  | fin q => if q = 0 then negZero else fin (-q)

/-- `x + y`. An exact zero sum is `+0.0` unless both operands are `-0.0`. -/
def add : F64 → F64 → F64
  | nan, _ => nan
  | _, nan => nan
  | inf a, inf b => if a = b then inf a else nan
  | inf a, _ => inf a
  | _, inf b => inf b
  | negZero, negZero => negZero
  | x, y => round false (x.val + y.val)

/-- `x - y`. -/
def sub (x y : F64) : F64 := add x (neg y)

/-- `x * y`. -/
def mul : F64 → F64 → F64
  | nan, _ => nan
  | _, nan => nan
  | inf a, y => match y with
    | inf b => inf (a != b)
    | _ => if y.val = 0 then nan else inf (a != y.sign)
  | x, inf b => if x.val = 0 then nan else inf (x.sign != b)
  | x, y => round (x.sign != y.sign) (x.val * y.val)

/-- `x / y`. -/
def div : F64 → F64 → F64
  | nan, _ => nan
  | _, nan => nan
  | inf a, y => match y with
    | inf _ => nan
    | _ => inf (a != y.sign)
  | x, inf b => if x.sign != b then negZero else fin 0
  | x, y =>
    if y.val = 0 then
      if x.val = 0 then nan else inf (x.sign != y.sign)
    else round (x.sign != y.sign) (x.val / y.val)

/-- `x.partial_cmp(&y)`. -/
def partialCmp : F64 → F64 → Option Ordering
  | nan, _ => none
  | _, nan => none
  | inf a, inf b => some (if a = b then .eq else if a then .lt else .gt)
  | inf a, _ => some (if a then .lt else .gt)
  | _, inf b => some (if b then .gt else .lt)
  | x, y => some (if x.val < y.val then .lt else if x.val = y.val then .eq else .gt)

/-- `x <= y` (false if unordered). -/
def le (x y : F64) : Bool :=
  match partialCmp x y with
  | some .lt => true
  | some .eq => true
  | _ => false

/-- `x > y` (false if unordered). -/
def gt (x y : F64) : Bool := partialCmp x y == some .gt

/-- `n as f64` for an unsigned integer `n`. -/
def ofNat (n : ℕ) : F64 := round false (n : ℚ)

/-- The double denoted by the decimal literal `m / 10^s` (`m` may be negative). -/
def ofDec (m : ℤ) (s : ℕ) : F64 := round false ((m : ℚ) / (10 : ℚ) ^ s)

end F64

end HLL
