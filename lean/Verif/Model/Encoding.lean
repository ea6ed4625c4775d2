import Verif.Model.Prim

/-! # Model of `src/encoding.rs` -/

namespace HLL

/-- `VarIntVec` (src/encoding.rs:5): a vector of bytes.  `Vec` capacity
(`with_capacity`, src/encoding.rs:44-46) is not modelled. -/
abbrev VarIntVec := List U8

namespace VarIntVec

/-- `VarIntVec::new` (src/encoding.rs:40-42). -/
def new : VarIntVec := []

/-- `VAR_INT_MASK = !SEVEN_LSB_MASK` (src/encoding.rs:34-36). -/
def VAR_INT_MASK : U32 := ~~~ (127#32)

/-- The bytes appended by `VarIntVec::push` (src/encoding.rs:49-58).  The `while` loop on `val`
becomes structural recursion on `fuel`; every iteration drops 7 bits, so the loop runs at most
4 times on a `u32` and `push` starts it with fuel 5. -/
def pushLoop : (fuel : Nat) → (val : U32) → List U8
  | 0, _ => []
  | fuel + 1, val =>
    if val &&& VAR_INT_MASK ≠ 0 then
      (((val &&& 127#32).setWidth 8) ||| 128#8) :: pushLoop fuel (val >>> 7)
    else
      [(val &&& 127#32).setWidth 8]

/-- `VarIntVec::push` (src/encoding.rs:49-58). -/
def push (v : VarIntVec) (val : U32) : VarIntVec := v ++ pushLoop 5 val

/-- The `while` loop of `VarIntVec::decode` (src/encoding.rs:64-77), from loop state `(i, val)`.
Indexing is bounds checked and the shift is an overflow-checked `u32` shift, as in the source.
The fuel bounds the number of iterations by the length of the vector (each iteration reads a
further byte; reading past the end panics). -/
def decodeLoop (cfg : Cfg) (v : VarIntVec) (start : Nat) :
    (fuel : Nat) → (i : Nat) → (val : U32) → R (U32 × Nat)
  | 0, _, _ => .error .indexOutOfBounds
  | fuel + 1, i, val => do
    let b ← index v (start + i)
    if b &&& 128#8 ≠ 0 then do
      let part ← shl cfg ((b.setWidth 32) &&& 127#32) (i * 7)
      decodeLoop cfg v start fuel (i + 1) (val ||| part)
    else do
      let part ← shl cfg (b.setWidth 32) (i * 7)
      pure (val ||| part, start + i + 1)

/-- `VarIntVec::decode` (src/encoding.rs:64-77). -/
def decode (cfg : Cfg) (v : VarIntVec) (start : Nat) : R (U32 × Nat) :=
  decodeLoop cfg v start (v.length + 1) 0 0#32

/-- `VarIntVecIntoIter::next` (src/encoding.rs:150-160); the iterator state is `index`. -/
def next (cfg : Cfg) (v : VarIntVec) (idx : Nat) : R (Option (U32 × Nat)) :=
  if v.length ≤ idx then pure none
  else do
    let (val, idx') ← decode cfg v idx
    pure (some (val, idx'))

/-- Draining the iterator of `&VarIntVec` (src/encoding.rs:122-132, 147-161) into a list, from
iterator state `idx`.  Every `next` consumes at least a byte, hence the fuel. -/
def collect (cfg : Cfg) (v : VarIntVec) : (fuel : Nat) → (idx : Nat) → R (List U32)
  | 0, _ => pure []
  | fuel + 1, idx => do
    match ← next cfg v idx with
    | none => pure []
    | some (val, idx') => do
      let rest ← collect cfg v fuel idx'
      pure (val :: rest)

/-- `v.into_iter().collect()` for `&VarIntVec`. -/
def toList (cfg : Cfg) (v : VarIntVec) : R (List U32) := collect cfg v (v.length + 1) 0

end VarIntVec

/-- `DifIntVec` (src/encoding.rs:13-20). -/
structure DifIntVec where
  count : Nat
  last : U32
  buf : VarIntVec
  deriving DecidableEq, Repr

namespace DifIntVec

/-- `DifIntVec::new` (src/encoding.rs:81-87); also `with_capacity` (89-95), capacity being
unobservable. -/
def new : DifIntVec := ⟨0, 0#32, VarIntVec.new⟩

/-- `DifIntVec::push` (src/encoding.rs:98-102). -/
def push (cfg : Cfg) (d : DifIntVec) (val : U32) : R DifIntVec := do
  let dif ← subU32 cfg val d.last
  let count ← addUsize cfg d.count 1
  pure { buf := d.buf.push dif, last := val, count := count }

/-- `DifIntVec::len` (src/encoding.rs:110-112): the number of bytes. -/
def len (d : DifIntVec) : Nat := d.buf.length

/-- `DifIntVec::clear` (src/encoding.rs:115-119). -/
def clear (_ : DifIntVec) : DifIntVec := ⟨0, 0#32, []⟩

/-- Iterator state of `DifIntVecIntoIter` (src/encoding.rs:27-31). -/
structure Iter where
  index : Nat
  last : U32

/-- `DifIntVecIntoIter::next` (src/encoding.rs:166-178). -/
def next (cfg : Cfg) (d : DifIntVec) (it : Iter) : R (Option (U32 × Iter)) :=
  if d.buf.length ≤ it.index then pure none
  else do
    let (dif, idx) ← d.buf.decode cfg it.index
    let last ← addU32 cfg it.last dif
    pure (some (last, ⟨idx, last⟩))

/-- Draining the iterator of `&DifIntVec` (src/encoding.rs:134-145, 163-179) from state `it`. -/
def collect (cfg : Cfg) (d : DifIntVec) : (fuel : Nat) → Iter → R (List U32)
  | 0, _ => pure []
  | fuel + 1, it => do
    match ← next cfg d it with
    | none => pure []
    | some (val, it') => do
      let rest ← collect cfg d fuel it'
      pure (val :: rest)

/-- `for x in &d` / `d.into_iter()`: the sequence the iterator yields.  The iterator borrows `d`
immutably, so loops over it see exactly this sequence. -/
def toList (cfg : Cfg) (d : DifIntVec) : R (List U32) :=
  collect cfg d (d.buf.length + 1) ⟨0, 0#32⟩

end DifIntVec

end HLL
