import Verif.Model.Encoding
import Verif.Model.Common
import Verif.Model.Constants

/-! # Model of `src/hyperloglogplus.rs` -/

namespace HLL

/-- An iteration order for a `HashSet<u32>` (a duplicate-free list here): std specifies no order,
and the default hasher randomises it.  Every model function that iterates over a set takes the
order as an argument; theorems quantify over all of them. -/
structure IterOrder where
  apply : List U32 → List U32
  perm : ∀ l, (apply l).Perm l

/-- The order in which the model's list happens to be stored. -/
def IterOrder.id : IterOrder := ⟨fun l => l, fun _ => List.Perm.refl _⟩

/-- `HashSet::insert` on a duplicate-free list. -/
def hashSetInsert (s : List U32) (x : U32) : List U32 := if x ∈ s then s else x :: s

/-- `HyperLogLogPlus<H, B>` (src/hyperloglogplus.rs:57-69).  `I` stands for what a value feeds to
a `Hasher`; the builder is represented by the function from that input to the 64-bit hash.
`precision` is a `u8`.  `phantom` carries no data. -/
structure Plus (I : Type) where
  builder : I → U64
  precision : Nat
  counts : Nat × Nat × Nat
  tmpset : List U32
  sparse : DifIntVec
  registers : Option Registers

namespace Plus

/-- `MIN_PRECISION` (src/hyperloglogplus.rs:77). -/
def MIN_PRECISION : Nat := 4
/-- `MAX_PRECISION` (src/hyperloglogplus.rs:79). -/
def MAX_PRECISION : Nat := 18
/-- `PRIME_PRECISION` (src/hyperloglogplus.rs:81). -/
def PRIME_PRECISION : Nat := 25
/-- `RegistersPlus::SIZE` (src/common.rs:109). -/
def SIZE : Nat := 6

variable {I : Type}

/-- `new` (src/hyperloglogplus.rs:84-106). -/
def new (cfg : Cfg) (precision : Nat) (builder : I → U64) :
    R (Except HyperLogLogError (Plus I)) :=
  if precision < MIN_PRECISION ∨ precision > MAX_PRECISION then
    pure (.error .InvalidPrecision)
  else do
    let count ← Common.registerCount cfg precision
    let p ← subU8 cfg PRIME_PRECISION 1
    let c1 ← Common.registerCount cfg p
    let c2 ← Registers.sizeInBytes cfg SIZE count
    pure (.ok { builder := builder, precision := precision, counts := (count, c1, c2),
                tmpset := [], sparse := DifIntVec.new, registers := none })

/-- `is_sparse` (src/hyperloglogplus.rs:251-253). -/
def isSparse (s : Plus I) : Bool := s.registers.isNone

/-- `encode_hash` (src/hyperloglogplus.rs:256-274).  It only uses `self.precision`, which is the
argument here. -/
def encodeHash (cfg : Cfg) (precision : Nat) (hash : U64) : R U32 := do
  let lo ← subU8 cfg 64 PRIME_PRECISION
  let idx ← extract64 cfg hash 64 lo
  let hi ← subU8 cfg 64 precision
  let lo ← subU8 cfg 64 PRIME_PRECISION
  let dif ← extract64 cfg hash hi lo
  if dif = 0#64 then do
    let a ← shl cfg hash PRIME_PRECISION
    let k ← subU8 cfg PRIME_PRECISION 1
    let b ← shl cfg 1#64 k
    let hash := a ||| b
    let zeros : U32 := BitVec.ofNat 32 (1 + leadingZeros hash)
    let x ← shl cfg (idx.setWidth 32 : U32) 7
    let z ← shl cfg zeros 1
    pure (x ||| z ||| 1#32)
  else do
    let x ← shl cfg idx 1
    pure (x.setWidth 32)

/-- `index` (src/hyperloglogplus.rs:277-287). -/
def indexOf (cfg : Cfg) (precision : Nat) (code : U32) : R Nat := do
  if code &&& 1#32 = 1#32 then
    let lo ← subU8 cfg 32 precision
    let x ← extract32 cfg code 32 lo
    pure x.toNat
  else
    let hi ← addU8 cfg PRIME_PRECISION 1
    let d ← subU8 cfg PRIME_PRECISION precision
    let lo ← addU8 cfg d 1
    let x ← extract32 cfg code hi lo
    pure x.toNat

/-- `decode_hash` (src/hyperloglogplus.rs:291-304): number of leading zeros and register index. -/
def decodeHash (cfg : Cfg) (precision : Nat) (code : U32) : R (U32 × Nat) := do
  if code &&& 1#32 = 1#32 then
    let x ← extract32 cfg code 7 1
    let d ← subU8 cfg PRIME_PRECISION precision
    let z ← addU32 cfg x (BitVec.ofNat 32 d)
    let i ← indexOf cfg precision code
    pure (z, i)
  else
    let a ← subU8 cfg 32 PRIME_PRECISION
    let b ← addU8 cfg a precision
    let k ← subU8 cfg b 1
    let h ← shl cfg code k
    let i ← indexOf cfg precision code
    pure (BitVec.ofNat 32 (leadingZeros h + 1), i)

/-- The body shared by the loops `for hash_code in .. { let (zeros, index) = decode_hash(..);
registers.set_greater(index, zeros) }` (src/hyperloglogplus.rs:147-157 and 312-316). -/
def setCodes (cfg : Cfg) (precision : Nat) : List U32 → Registers → R Registers
  | [], r => pure r
  | c :: cs, r => do
    let (zeros, idx) ← decodeHash cfg precision c
    let r ← r.setGreater cfg SIZE idx zeros
    setCodes cfg precision cs r

/-- `sparse_to_normal` (src/hyperloglogplus.rs:308-323). -/
def sparseToNormal (cfg : Cfg) (s : Plus I) : R (Plus I) := do
  let r ← Registers.withCount cfg SIZE s.counts.1
  let codes ← s.sparse.toList cfg
  let r ← setCodes cfg s.precision codes r
  pure { s with registers := some r, tmpset := [], sparse := s.sparse.clear }

/-- The `while` loop of `merge_sparse` (src/hyperloglogplus.rs:340-373).  The two `Option`s of the
source are the heads of the two sequences still to be consumed. -/
def mergeLoop (cfg : Cfg) : (set buf : List U32) → DifIntVec → R DifIntVec
  | [], [], out => pure out
  | [], b :: bs, out => do
    let out ← out.push cfg b
    mergeLoop cfg [] bs out
  | a :: as, [], out => do
    let out ← out.push cfg a
    mergeLoop cfg as [] out
  | a :: as, b :: bs, out =>
    if a = b then do
      let out ← out.push cfg a
      mergeLoop cfg as bs out
    else if a > b then do
      let out ← out.push cfg b
      mergeLoop cfg (a :: as) bs out
    else do
      let out ← out.push cfg a
      mergeLoop cfg as (b :: bs) out
  termination_by as bs => as.length + bs.length

/-- `slice::sort` on `u32`. -/
def sortCodes (l : List U32) : List U32 := l.mergeSort (fun a b => decide (a ≤ b))

/-- `merge_sparse` (src/hyperloglogplus.rs:327-382). -/
def mergeSparse (cfg : Cfg) (ord : IterOrder) (s : Plus I) : R (Plus I) := do
  let setCodes := sortCodes (ord.apply s.tmpset)
  let bufCodes ← s.sparse.toList cfg
  let buf ← mergeLoop cfg setCodes bufCodes DifIntVec.new
  let s := { s with sparse := buf, tmpset := [] }
  if s.sparse.len > s.counts.2.2 then sparseToNormal cfg s else pure s

/-- `if self.tmpset.len() * 100 > self.counts.2 { self.merge_sparse() }`
(src/hyperloglogplus.rs:137-139 and 230-232). -/
def maybeMergeSparse (cfg : Cfg) (ord : IterOrder) (s : Plus I) : R (Plus I) := do
  let n ← mulUsize cfg s.tmpset.length 100
  if n > s.counts.2.2 then mergeSparse cfg ord s else pure s

/-- `insert_impl` (src/hyperloglogplus.rs:193-235) on an already computed hash. -/
def insertHash (cfg : Cfg) (ord : IterOrder) (s : Plus I) (hash : U64) : R (Plus I) :=
  match s.registers with
  | some registers => do
    let k ← subU8 cfg 64 s.precision
    let idx ← shr cfg hash k
    let a ← shl cfg hash s.precision
    let k ← subU8 cfg s.precision 1
    let b ← shl cfg 1#64 k
    let hash := a ||| b
    let zeros : U32 := BitVec.ofNat 32 (1 + leadingZeros hash)
    let registers ← registers.setGreater cfg SIZE (idx.toNat % 2 ^ cfg.usizeBits) zeros
    pure { s with registers := some registers }
  | none => do
    let code ← encodeHash cfg s.precision hash
    let s := { s with tmpset := hashSetInsert s.tmpset code }
    maybeMergeSparse cfg ord s

/-- `insert_impl` (src/hyperloglogplus.rs:193-235): hash with the sketch's builder, then update. -/
def insertImpl (cfg : Cfg) (ord : IterOrder) (s : Plus I) (value : I) : R (Plus I) :=
  insertHash cfg ord s (s.builder value)

/-- `insert_any` (src/hyperloglogplus.rs:185-190). -/
def insertAny (cfg : Cfg) (ord : IterOrder) (s : Plus I) (value : I) : R (Plus I) :=
  insertImpl cfg ord s value
/-- `HyperLogLog::add` (src/hyperloglogplus.rs:456-458). -/
def add (cfg : Cfg) (ord : IterOrder) (s : Plus I) (value : I) : R (Plus I) :=
  insertImpl cfg ord s value
/-- `HyperLogLog::insert` (src/hyperloglogplus.rs:461-467). -/
def insert (cfg : Cfg) (ord : IterOrder) (s : Plus I) (value : I) : R (Plus I) :=
  insertImpl cfg ord s value

/-- `for (i, val) in iter.enumerate() { registers.set_greater(i, val) }`
(src/hyperloglogplus.rs:176-178), from index `i`. -/
def mergeRegs (cfg : Cfg) : (i : Nat) → List U32 → Registers → R Registers
  | _, [], r => pure r
  | i, v :: vs, r => do
    let r ← r.setGreater cfg SIZE i v
    mergeRegs cfg (i + 1) vs r

/-- `merge` (src/hyperloglogplus.rs:112-182).  `other` may have another builder and another type of
values.  Returns the new `self` and the `Result`.  `ordO` orders the iteration over `other`'s set, `ordS` the one
over `self`'s. -/
def merge {J : Type} (cfg : Cfg) (ordS ordO : IterOrder) (s : Plus I) (other : Plus J) :
    R (Plus I × Except HyperLogLogError Unit) :=
  if s.precision ≠ other.precision then
    pure (s, .error .IncompatiblePrecision)
  else
    match other.registers with
    | none =>
      match s.registers with
      | none => do
        let tmp := (ordO.apply other.tmpset).foldl hashSetInsert s.tmpset
        let codes ← other.sparse.toList cfg
        let tmp := codes.foldl hashSetInsert tmp
        let s ← maybeMergeSparse cfg ordS { s with tmpset := tmp }
        pure (s, .ok ())
      | some registers => do
        let registers ← setCodes cfg other.precision (ordO.apply other.tmpset) registers
        let codes ← other.sparse.toList cfg
        let registers ← setCodes cfg other.precision codes registers
        pure ({ s with registers := some registers }, .ok ())
    | some otherRegs => do
      let s ← (match s.registers with
        | none => do
          let s ← mergeSparse cfg ordS s
          match s.registers with
          | none => sparseToNormal cfg s
          | some _ => pure s
        | some _ => pure s : R (Plus I))
      let registers ← unwrap s.registers
      let registers ← mergeRegs cfg 0 (otherRegs.iter SIZE) registers
      pure ({ s with registers := some registers }, .ok ())

/-- `slice::binary_search_by` of std, version with early exit: `cmp i` compares element `i` with the target.
State `(left, right)`; the loop halves the range, `fuel` bounds it. `Ok i` is `Sum.inl i`,
`Err i` is `Sum.inr i`. -/
def binarySearchLoop (cmp : Nat → R Ordering) : (fuel : Nat) → (left right : Nat) → R (Nat ⊕ Nat)
  | 0, left, _ => pure (.inr left)
  | fuel + 1, left, right =>
    if left < right then do
      let mid := left + (right - left) / 2
      match ← cmp mid with
      | .lt => binarySearchLoop cmp fuel (mid + 1) right
      | .gt => binarySearchLoop cmp fuel left mid
      | .eq => pure (.inl mid)
    else pure (.inr left)

/-- The other implementation of `slice::binary_search_by`: the loop of the version without early
exit.  State `(size, base)`; `size` shrinks by `size / 2` until it is 1, `fuel` bounds the loop. -/
def branchlessLoop (cmp : Nat → R Ordering) : (fuel : Nat) → (size base : Nat) → R Nat
  | 0, _, base => pure base
  | fuel + 1, size, base =>
    if 1 < size then do
      let half := size / 2
      let mid := base + half
      let o ← cmp mid
      branchlessLoop cmp fuel (size - half) (if o = .gt then base else mid)
    else pure base

/-- `slice::binary_search_by` without early exit, on a slice of length `n`: after the loop the
element at `base` decides. -/
def branchlessSearch (cmp : Nat → R Ordering) (n : Nat) : R (Nat ⊕ Nat) :=
  if n = 0 then pure (.inr 0)
  else do
    let base ← branchlessLoop cmp n n 0
    match ← cmp base with
    | .eq => pure (.inl base)
    | .lt => pure (.inr (base + 1))
    | .gt => pure (.inr base)

/-- `estimates.binary_search_by(|est| est.partial_cmp(&raw).unwrap())`
(src/hyperloglogplus.rs:404-405). -/
def binarySearch (v : Search) (estimates : List F64) (raw : F64) : R (Nat ⊕ Nat) :=
  let cmp := fun i => do
    let est ← index estimates i
    unwrap (F64.partialCmp est raw)
  match v with
  | .earlyExit => binarySearchLoop cmp (estimates.length + 1) 0 estimates.length
  | .branchless => branchlessSearch cmp estimates.length

/-- The part of `estimate_bias` after the tables have been selected
(src/hyperloglogplus.rs:392-416); the binary search is a parameter. -/
def interpolateBias (cfg : Cfg) (search : List F64 → F64 → R (Nat ⊕ Nat))
    (estimates biases : List F64) (raw : F64) : R F64 := do
  let first ← index estimates 0
  if F64.le raw first then index biases 0
  else do
    let n ← subUsize cfg estimates.length 1
    let last ← index estimates n
    if F64.le last raw then do
      let n ← subUsize cfg biases.length 1
      index biases n
    else do
      let idx ← (do
        match ← search estimates raw with
        | .inl idx => pure idx
        | .inr idx => pure idx : R Nat)
      let prv ← subUsize cfg idx 1
      let ePrv ← index estimates prv
      let eIdx ← index estimates idx
      let ratio := F64.div (F64.sub raw ePrv) (F64.sub eIdx ePrv)
      let bPrv ← index biases prv
      let bIdx ← index biases idx
      pure (F64.add bPrv (F64.mul ratio (F64.sub bIdx bPrv)))

/-- `estimate_bias` (src/hyperloglogplus.rs:385-417). -/
def estimateBias (cfg : Cfg) (precision : Nat) (raw : F64) : R F64 := do
  let k ← subU8 cfg precision MIN_PRECISION
  let biases ← index Constants.BIAS_DATA k
  let estimates ← index Constants.RAW_ESTIMATE_DATA k
  interpolateBias cfg (binarySearch cfg.search) estimates biases raw

/-- `threshold` (src/hyperloglogplus.rs:421-440). -/
def threshold (precision : Nat) : R F64 :=
  match precision with
  | 4 => pure (F64.ofNat 10)
  | 5 => pure (F64.ofNat 10)
  | 6 => pure (F64.ofNat 40)
  | 7 => pure (F64.ofNat 80)
  | 8 => pure (F64.ofNat 220)
  | 9 => pure (F64.ofNat 400)
  | 10 => pure (F64.ofNat 900)
  | 11 => pure (F64.ofNat 1800)
  | 12 => pure (F64.ofNat 3100)
  | 13 => pure (F64.ofNat 6500)
  | 14 => pure (F64.ofNat 11500)
  | 15 => pure (F64.ofNat 20000)
  | 16 => pure (F64.ofNat 50000)
  | 17 => pure (F64.ofNat 120000)
  | 18 => pure (F64.ofNat 350000)
  | _ => .error .unreachable

/-- The raw estimate with bias correction (src/hyperloglogplus.rs:490-500 and 504-514).  This type is
compiled only with `std` (src/lib.rs:47-48). -/
def correctedRaw (cfg : Cfg) (precision m : Nat) (registers : Registers) : R F64 := do
  let raw ← Common.estimateRawPlus { cfg with std := true } (registers.iter SIZE) m
  if F64.le raw (F64.mul (F64.ofNat 5) (F64.ofNat m)) then do
    let bias ← estimateBias cfg precision raw
    pure (F64.sub raw bias)
  else pure raw

/-- The dense branch of `count` (src/hyperloglogplus.rs:477-516). -/
def countNormal (cfg : Cfg) (ln : F64 → F64) (precision m : Nat) (registers : Registers) :
    R F64 := do
  let zeros := registers.zeros
  if zeros ≠ 0 then do
    let correction := Common.linearCount ln m zeros
    let t ← threshold precision
    if F64.le correction t then pure correction
    else correctedRaw cfg precision m registers
  else correctedRaw cfg precision m registers

/-- `count` (src/hyperloglogplus.rs:470-527): the new `self` and the estimate. -/
def count (cfg : Cfg) (ln : F64 → F64) (ord : IterOrder) (s : Plus I) : R (Plus I × F64) := do
  let s ← (match s.registers with
    | none => mergeSparse cfg ord s
    | some _ => pure s : R (Plus I))
  match s.registers with
  | some registers => do
    let c ← countNormal cfg ln s.precision s.counts.1 registers
    pure (s, c)
  | none => do
    let zeros ← subUsize cfg s.counts.2.1 s.sparse.count
    pure (s, Common.linearCount ln s.counts.2.1 zeros)

end Plus

end HLL
