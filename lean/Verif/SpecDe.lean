import Verif.Model.Serde
import Verif.Spec

/-!
# Which deserialised sketches are well formed

Written on the fields of the sketch as they appear in a payload, in terms of numbers only.  The crate
performs none of these checks when it deserialises.
-/

namespace HLL.Spec

/-- Field number `j` of a vector of 32-bit words holding `32 / S` fields of `S` bits each. -/
def packed (S : Nat) (words : List Nat) (j : Nat) : Nat :=
  words.getD (j / (32 / S)) 0 / 2 ^ (j % (32 / S) * S) % 2 ^ S

/-- `n` packed registers of `S` bits: as many words as needed, and the right number of zeros. -/
def GoodRegs (S n : Nat) (r : Registers) : Prop :=
  r.count = n ∧ r.buf.length = (n + 32 / S - 1) / (32 / S) ∧
    r.zeros = ((List.range n).map (packed S (r.buf.map BitVec.toNat))).count 0

/-- A number that is the sparse code of some hash at precision `p`: odd codes hold 25 bits whose last
`25 - p` are zero and a rank between 1 and 40, even ones 25 bits whose last `25 - p` are not all zero. -/
def GoodCode (p c : Nat) : Prop :=
  if c % 2 = 1 then c < 2 ^ 32 ∧ c / 128 % 2 ^ (25 - p) = 0 ∧ 1 ≤ c / 2 % 64 ∧ c / 2 % 64 ≤ 40
  else c < 2 ^ 26 ∧ c / 2 % 2 ^ (25 - p) ≠ 0

/-- Variable-length encoding: 7 bits per byte, least significant first, top bit set on all but the
last byte. -/
def varBytes (n : Nat) : List Nat := if n < 128 then [n] else (n % 128 + 128) :: varBytes (n / 128)

/-- Difference encoding of a list of numbers, the previous one being `prev`. -/
def gapBytes : (prev : Nat) → List Nat → List Nat
  | _, [] => []
  | prev, c :: cs => varBytes (c - prev) ++ gapBytes c cs

/-- The sparse list: the encoding of a strictly increasing list of codes. -/
def GoodSparse (p : Nat) (d : DifIntVec) : Prop :=
  ∃ L : List Nat, L.Pairwise (· < ·) ∧ (∀ c ∈ L, GoodCode p c) ∧ d.count = L.length ∧
    d.last.toNat = L.getLastD 0 ∧ d.buf.map BitVec.toNat = gapBytes 0 L

/-- A well-formed `HyperLogLogPlus`.  The sparse list and the temporary set are only looked at when
there are no registers. -/
def GoodPlus {I : Type} (s : Plus I) : Prop :=
  4 ≤ s.precision ∧ s.precision ≤ 18 ∧
  s.counts = (2 ^ s.precision, 2 ^ 24, capacity s.precision) ∧
  match s.registers with
  | some r => GoodRegs 6 (2 ^ s.precision) r
  | none => GoodSparse s.precision s.sparse ∧ s.sparse.buf.length ≤ capacity s.precision ∧
      s.tmpset.Nodup ∧ (∀ c ∈ s.tmpset, GoodCode s.precision c.toNat) ∧
      s.tmpset.length * 100 ≤ capacity s.precision

/-- A well-formed `HyperLogLogPF`. -/
def GoodPF {I : Type} (s : PF I) : Prop :=
  4 ≤ s.precision ∧ s.precision ≤ 16 ∧ s.count = 2 ^ s.precision ∧
  GoodRegs 5 (2 ^ s.precision) s.registers

end HLL.Spec
