import Mathlib.Data.Finset.Sort
import Mathlib.Data.Finset.Lattice.Fold
import Mathlib.Data.Fintype.Basic

/-!
# Specification

Written with natural numbers and finite sets only; it does not use the model.
A hash is a natural number `h < 2^w` (`w = 64` for `HyperLogLogPlus`, `w = 32` for
`HyperLogLogPF`), read as a string of `w` bits, most significant bit first.
-/

namespace HLL.Spec

/-- Reading the `n` low bits of `h` from the most significant one: the 1-based position of the
first `1` bit, or `n + 1` if they are all `0`. -/
def firstOne : (n : Nat) → (h : Nat) → Nat
  | 0, _ => 1
  | n + 1, h => if h.testBit n then 1 else 1 + firstOne n h

/-- The register a hash belongs to: its top `p` bits. -/
def bucket (w p h : Nat) : Nat := h / 2 ^ (w - p)

/-- The rank of a hash: position of the first `1` after the top `p` bits. -/
def rank (w p h : Nat) : Nat := firstOne (w - p) h

/-- Register `j` of the set `S` of hashes: the maximal rank in bucket `j`, `0` if there is none. -/
def reg (w p : Nat) (S : Finset Nat) (j : Nat) : Nat :=
  (S.filter fun h => bucket w p h = j).sup (rank w p)

/-- All `2^p` registers in index order. -/
def regs (w p : Nat) (S : Finset Nat) : List Nat := (List.range (2 ^ p)).map (reg w p S)

/-- The number of registers equal to zero. -/
def zeros (w p : Nat) (S : Finset Nat) : Nat :=
  ((Finset.range (2 ^ p)).filter fun j => reg w p S j = 0).card

/-- Sparse code of a 64-bit hash at precision `p`: with `i` the top 25 bits, if the bits `p..25` are
all zero the code is `i`, then the rank of the remaining 39 bits in 6 bits, then `1`; otherwise the
code is `i` followed by `0`. -/
def code (p h : Nat) : Nat :=
  let i := h / 2 ^ 39
  if i % 2 ^ (25 - p) = 0 then i * 128 + firstOne 39 h * 2 + 1 else i * 2

/-- The set of sparse codes of a set of hashes. -/
def codes (p : Nat) (S : Finset Nat) : Finset Nat := S.image (code p)

/-- Number of bytes of the variable-length encoding of `n`: 7 bits per byte. -/
def varLen (n : Nat) : Nat := if n < 128 then 1 else 1 + varLen (n / 128)

/-- Number of bytes of the difference encoding of a list of numbers, the previous one being `prev`. -/
def gapsSize : (prev : Nat) → List Nat → Nat
  | _, [] => 0
  | prev, c :: cs => varLen (c - prev) + gapsSize c cs

/-- Number of bytes needed to store a set of codes: differences of the sorted sequence. -/
def encSize (C : Finset Nat) : Nat := gapsSize 0 (C.sort (· ≤ ·))

/-- Capacity of the sparse representation in bytes: the size of the dense registers. -/
def capacity (p : Nat) : Nat := 4 * 2 ^ p / 5

/-- A set of hashes is kept sparse when its codes fit in the capacity. -/
def fitsSparse (p : Nat) (S : Finset Nat) : Prop := encSize (codes p S) ≤ capacity p

instance (p : Nat) (S : Finset Nat) : Decidable (fitsSparse p S) := by
  unfold fitsSparse; infer_instance

end HLL.Spec
