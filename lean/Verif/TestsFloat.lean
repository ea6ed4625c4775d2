import Verif.Model.Log

/-!
# The model of `f64` against the arithmetic of this machine

Tests, not proofs: operations of `Model/F64.lean` and `Model/Log.lean` are compared bit by bit with the
binary64 arithmetic of the processor (Lean's `Float`), on special values, neighbours of powers of two,
subnormal numbers, ties and pseudo-random bit patterns.  They check that the definitions of rounding,
of signed zeros, of overflow, of comparisons and of conversions are those of IEEE-754.
-/

namespace HLL.TestsFloat
open F64

/-- Bit patterns with special roles. -/
def special : List UInt64 := [
  0, 0x8000000000000000, 1, 0x8000000000000001, 2, 3, 0x000FFFFFFFFFFFFF, 0x0010000000000000,
  0x0010000000000001, 0x001FFFFFFFFFFFFF, 0x3FF0000000000000, 0xBFF0000000000000, 0x3FF0000000000001,
  0x3FEFFFFFFFFFFFFF, 0x3FE0000000000000, 0x3CA0000000000000, 0x3CA0000000000001, 0x4000000000000000,
  0x4008000000000000, 0x433FFFFFFFFFFFFF, 0x4340000000000000, 0x4340000000000001, 0x4330000000000001,
  0x7FEFFFFFFFFFFFFF, 0xFFEFFFFFFFFFFFFF, 0x7FE0000000000000, 0x7FF0000000000000, 0xFFF0000000000000,
  0x7FF8000000000000, 0x1FF0000000000001, 0x2000000000000000, 0x5FEFFFFFFFFFFFFF, 0x41EFFFFFFFE00000]

/-- A linear congruential generator. -/
def lcg (x : UInt64) : UInt64 := x * 6364136223846793005 + 1442695040888963407

def stream : Nat → UInt64 → List UInt64
  | 0, _ => []
  | n + 1, x => (lcg x ^^^ (lcg x >>> 29)) :: stream n (lcg x)

/-- Patterns with the same exponent up to 64, so that additions round and cancel. -/
def close (x y : UInt64) : UInt64 :=
  let e : UInt64 := (x >>> 52) &&& 0x7FF
  let e' : UInt64 := (e + ((y >>> 52) &&& 0x3F) - 32) &&& 0x7FF
  (y &&& (0x800FFFFFFFFFFFFF : UInt64)) ||| (e' <<< 52)

def random : List (UInt64 × UInt64) :=
  let l := stream 1200 42
  (l.zip (l.drop 1)).zip (l.drop 2) |>.flatMap fun ((x, y), z) => [(x, y), (x, close x z)]

def pairs : List (UInt64 × UInt64) := special.flatMap (fun x => special.map fun y => (x, y)) ++ random

def model (b : UInt64) : F64 := fromBits (BitVec.ofNat 64 b.toNat)

/-- Equal bits, where all NaNs count as one. -/
def same (x : F64) (y : Float) : Bool :=
  if y.isNaN then x = nan else (toBits 0#64 x).toNat = y.toBits.toNat

#guard special.length = 33 ∧ pairs.length = 33 * 33 + 2 * 1198
#guard pairs.all fun (x, y) => same (model x) (Float.ofBits x) && same (model y) (Float.ofBits y)
#guard pairs.all fun (x, y) => same (add (model x) (model y)) (Float.ofBits x + Float.ofBits y)
#guard pairs.all fun (x, y) => same (sub (model x) (model y)) (Float.ofBits x - Float.ofBits y)
#guard pairs.all fun (x, y) => same (mul (model x) (model y)) (Float.ofBits x * Float.ofBits y)
#guard pairs.all fun (x, y) => same (div (model x) (model y)) (Float.ofBits x / Float.ofBits y)
#guard pairs.all fun (x, _) => same (neg (model x)) (-Float.ofBits x)
#guard pairs.all fun (x, y) => le (model x) (model y) == decide (Float.ofBits x ≤ Float.ofBits y)
#guard pairs.all fun (x, y) => gt (model x) (model y) == decide (Float.ofBits x > Float.ofBits y)
#guard pairs.all fun (x, _) => same (ofNat x.toNat) x.toFloat
#guard (List.range 1000).all fun n => same (ofDec (n * 7919) 4) (OfScientific.ofScientific (n * 7919) true 4)

/-- The same number, or two neighbouring positive or negative numbers. -/
def neighbours (x : F64) (y : Float) : Bool :=
  same x y || (!y.isNaN && (let a := (toBits 0#64 x).toNat; let b := y.toBits.toNat; a = b + 1 || b = a + 1))

/-- The crate's logarithm against that of the C library: at most one unit in the last place apart, and
the same in the special cases. -/
def logOk (x : UInt64) : Bool :=
  match Log.log Cfg.debug64 0x7FF8000000000000#64 (model x) with
  | .ok y => neighbours y (Float.log (Float.ofBits x))
  | .error _ => false

#guard special.all logOk
#guard (stream 2000 7).all logOk
#guard (stream 2000 8).all fun x => logOk (x &&& 0x7FFFFFFFFFFFFFFF)
-- arguments between 1/2 and 2, where the logarithm is small
#guard (stream 2000 9).all fun x => logOk ((x &&& 0x001FFFFFFFFFFFFF) + 0x3FE0000000000000)

end HLL.TestsFloat
