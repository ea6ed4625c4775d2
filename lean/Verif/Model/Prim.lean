/-!
# Machine-level primitives of the Rust model

Rust semantics used by every other model file: panics, checked/wrapping integer
arithmetic, checked/masked shifts.  Nothing here models a line of `/repo` by itself; it models
the language the code is written in.
-/

namespace HLL

/-- The ways a Rust call in this crate can panic. -/
inductive Panic where
  /-- arithmetic or shift overflow, with overflow checks on -/
  | overflow
  /-- slice/`Vec` index out of bounds -/
  | indexOutOfBounds
  /-- `Option::unwrap` on `None` -/
  | unwrapNone
  /-- `unreachable!()` -/
  | unreachable
  deriving DecidableEq, Repr

/-- Result of a call: a value, or a panic. -/
abbrev R := Except Panic

/-- The two implementations of `slice::binary_search_by` found in releases of the standard library:
the one of Rust 1.52 to 1.81, which stops at the first equal element, and the one of older and of
newer releases, which does not. -/
inductive Search where
  | earlyExit
  | branchless
  deriving DecidableEq, Repr

/-- Build configuration.  `usizeBits` is the width of `usize` on the target;
`overflowChecks` is on in debug builds (overflow panics) and off in release builds
(overflow wraps, shift amounts are masked); `constLoop` and `std` are the crate features
`const-loop` and `std` (`Cargo.toml` lines 16-25); `search` and `sumFromNegZero` describe the
standard library: which binary search it has, and whether `f64: Sum` starts from `-0.0` (newer
releases) or `0.0`. -/
structure Cfg where
  usizeBits : Nat
  overflowChecks : Bool
  constLoop : Bool
  std : Bool := true
  search : Search := .earlyExit
  sumFromNegZero : Bool := false
  deriving DecidableEq, Repr

/-- The usual 64-bit debug build. -/
def Cfg.debug64 : Cfg := { usizeBits := 64, overflowChecks := true, constLoop := false }

abbrev U8 := BitVec 8
abbrev U32 := BitVec 32
abbrev U64 := BitVec 64

/-- An unsigned `w`-bit result `z`: in range it is returned, otherwise it panics
(overflow checks) or wraps modulo `2^w`. -/
def ck (cfg : Cfg) (w : Nat) (z : Int) : R Nat :=
  if 0 ≤ z ∧ z < 2 ^ w then .ok z.toNat
  else if cfg.overflowChecks then .error .overflow
  else .ok (z % 2 ^ w).toNat

/-- `a - b` on `u8` (used on precisions). -/
def subU8 (cfg : Cfg) (a b : Nat) : R Nat := ck cfg 8 ((a : Int) - (b : Int))
/-- `a + b` on `u8`. -/
def addU8 (cfg : Cfg) (a b : Nat) : R Nat := ck cfg 8 ((a : Int) + (b : Int))
/-- `a + b` on `usize`. -/
def addUsize (cfg : Cfg) (a b : Nat) : R Nat := ck cfg cfg.usizeBits ((a : Int) + (b : Int))
/-- `a - b` on `usize`. -/
def subUsize (cfg : Cfg) (a b : Nat) : R Nat := ck cfg cfg.usizeBits ((a : Int) - (b : Int))
/-- `a * b` on `usize`. -/
def mulUsize (cfg : Cfg) (a b : Nat) : R Nat := ck cfg cfg.usizeBits ((a : Int) * (b : Int))

/-- `a - b` on `u32`. -/
def subU32 (cfg : Cfg) (a b : U32) : R U32 :=
  if cfg.overflowChecks ∧ a.toNat < b.toNat then .error .overflow else .ok (a - b)
/-- `a + b` on `u32`. -/
def addU32 (cfg : Cfg) (a b : U32) : R U32 :=
  if cfg.overflowChecks ∧ 2 ^ 32 ≤ a.toNat + b.toNat then .error .overflow else .ok (a + b)

/-- The effective shift amount on a `w`-bit integer (`w` a power of two): amounts `≥ w` panic
with overflow checks and are masked (`k mod w`) without. -/
def shAmt (cfg : Cfg) (w k : Nat) : R Nat :=
  if k < w then .ok k else if cfg.overflowChecks then .error .overflow else .ok (k % w)

/-- `x << k` on a `w`-bit word. -/
def shl {w : Nat} (cfg : Cfg) (x : BitVec w) (k : Nat) : R (BitVec w) := do
  let k ← shAmt cfg w k
  pure (x <<< k)

/-- `x >> k` on a `w`-bit word. -/
def shr {w : Nat} (cfg : Cfg) (x : BitVec w) (k : Nat) : R (BitVec w) := do
  let k ← shAmt cfg w k
  pure (x >>> k)

/-- `1usize << k`. -/
def shlUsizeOne (cfg : Cfg) (k : Nat) : R Nat := do
  let k ← shAmt cfg cfg.usizeBits k
  pure (2 ^ k)

/-- `x.leading_zeros()` on a `w`-bit word: the number of zero bits above the highest one. -/
def leadingZeros {w : Nat} (x : BitVec w) : Nat :=
  if x.toNat = 0 then w else w - 1 - Nat.log2 x.toNat

/-- `v[i]` on a slice. -/
def index {α : Type _} (v : List α) (i : Nat) : R α :=
  match v[i]? with
  | some x => .ok x
  | none => .error .indexOutOfBounds

/-- `v[i] = x` on a `Vec`. -/
def setIndex {α : Type _} (v : List α) (i : Nat) (x : α) : R (List α) :=
  if i < v.length then .ok (v.set i x) else .error .indexOutOfBounds

/-- `opt.unwrap()`. -/
def unwrap {α : Type _} : Option α → R α
  | some x => .ok x
  | none => .error .unwrapNone

end HLL
