import Verif.Model.Prim

/-! # Model of the packed registers of `src/common.rs` (lines 6-141) -/

namespace HLL

/-- `ceil` (src/common.rs:213-215). -/
def ceil (cfg : Cfg) (num denom : Nat) : R Nat := do
  let a ← addUsize cfg num denom
  let b ← subUsize cfg a 1
  pure (b / denom)

/-- The struct made by `registers_impls![SIZE, ..]` (src/common.rs:7-18): `Registers` is
`SIZE = 5` (src/common.rs:102), `RegistersPlus` is `SIZE = 6` (src/common.rs:109).  The register
size `$len` is a parameter of the functions below. -/
structure Registers where
  buf : List U32
  count : Nat
  zeros : Nat
  deriving DecidableEq, Repr

namespace Registers

/-- `COUNT_PER_WORD` (src/common.rs:24). -/
def perWord (SIZE : Nat) : Nat := 32 / SIZE

/-- `MASK` (src/common.rs:26). -/
def mask (SIZE : Nat) : U32 := (1#32 <<< SIZE) - 1#32

/-- `with_count` (src/common.rs:29-35). -/
def withCount (cfg : Cfg) (SIZE count : Nat) : R Registers := do
  let words ← ceil cfg count (perWord SIZE)
  pure { buf := List.replicate words 0#32, count := count, zeros := count }

/-- The registers in one word, as enumerated by the inner closure of `iter`
(src/common.rs:41-45). `i * SIZE` is at most 31 here, so the shifts cannot overflow. -/
def lanes (SIZE : Nat) (val : U32) : List U32 :=
  (List.range (perWord SIZE)).map fun i => (val >>> (i * SIZE)) &&& mask SIZE

/-- `iter` (src/common.rs:38-48), as the list of values it yields. -/
def iter (SIZE : Nat) (r : Registers) : List U32 :=
  (r.buf.flatMap (lanes SIZE)).take r.count

/-- `get` (src/common.rs:52-59). -/
def get (cfg : Cfg) (SIZE : Nat) (r : Registers) (idx : Nat) : R U32 := do
  let qu := idx / perWord SIZE
  let rm := idx % perWord SIZE
  let w ← index r.buf qu
  let s ← shr cfg w (rm * SIZE)
  pure (s &&& mask SIZE)

/-- `set_greater` (src/common.rs:63-82). -/
def setGreater (cfg : Cfg) (SIZE : Nat) (r : Registers) (idx : Nat) (value : U32) : R Registers := do
  let qu := idx / perWord SIZE
  let rm := idx % perWord SIZE
  let w ← index r.buf qu
  let s ← shr cfg w (rm * SIZE)
  let cur := s &&& mask SIZE
  if value > cur then
    if cur = 0#32 then do
      let zeros ← subUsize cfg r.zeros 1
      let v ← shl cfg value (rm * SIZE)
      let buf ← setIndex r.buf qu (w ||| v)
      pure { r with buf := buf, zeros := zeros }
    else do
      let m ← shl cfg (mask SIZE) (rm * SIZE)
      let v ← shl cfg value (rm * SIZE)
      let buf ← setIndex r.buf qu ((w &&& ~~~ m) ||| v)
      pure { r with buf := buf }
  else
    pure r

/-- `size_in_bytes` (src/common.rs:91-93). -/
def sizeInBytes (cfg : Cfg) (SIZE count : Nat) : R Nat := do
  let a ← mulUsize cfg 4 count
  pure (a / perWord SIZE)

end Registers

/-- `u64::extract` (src/common.rs:235-240): `hi`, `lo` are `u8`. -/
def extract64 (cfg : Cfg) (num : U64) (hi lo : Nat) : R U64 := do
  let a ← subU8 cfg 64 hi
  let x ← shl cfg num a
  let d ← subU8 cfg hi lo
  let b ← subU8 cfg 64 d
  shr cfg x b

/-- `u32::extract` (src/common.rs:242-247). -/
def extract32 (cfg : Cfg) (num : U32) (hi lo : Nat) : R U32 := do
  let a ← subU8 cfg 32 hi
  let x ← shl cfg num a
  let d ← subU8 cfg hi lo
  let b ← subU8 cfg 32 d
  shr cfg x b

end HLL
