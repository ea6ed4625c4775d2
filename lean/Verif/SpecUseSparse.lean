import Verif.SpecUse
import Mathlib.Data.Nat.Digits.Defs
import Mathlib.Data.Multiset.Sort

/-!
# Which deserialised sparse sketches can be used without panics

Continues `SpecUse.lean` for a `HyperLogLogPlus` without registers, in terms of the numbers in the
payload only.
-/

namespace HLL.Spec

/-- The bytes of one number: at most five, the top bit set on all but the last. -/
def IsGroup (g : List Nat) : Prop :=
  g.length ≤ 5 ∧ ∃ init last, g = init ++ [last] ∧ (∀ b ∈ init, 128 ≤ b) ∧ last < 128

/-- The number they stand for: 7 bits per byte, least significant first; 32 bits are kept. -/
def groupValue (g : List Nat) : Nat := Nat.ofDigits 128 (g.map (· % 128)) % 2 ^ 32

/-- `prev + d₁, prev + d₁ + d₂, …` -/
def runningSums : (prev : Nat) → List Nat → List Nat
  | _, [] => []
  | prev, d :: ds => (prev + d) :: runningSums (prev + d) ds

/-- The bytes `bs` of a sparse list are read as the codes `L`: they are a sequence of groups, `L` are the
sums of the numbers so far, and these are below 2^32. -/
def ReadsAs (bs L : List Nat) : Prop :=
  ∃ gs : List (List Nat), gs.flatten = bs ∧ (∀ g ∈ gs, IsGroup g) ∧
    L = runningSums 0 (gs.map groupValue) ∧ ∀ c ∈ L, c < 2 ^ 32

/-- The list `L` together with the codes of `X` that are not in it, in increasing order.  (`L` may
contain a code twice; it stays there twice.) -/
def withCodes (L : List Nat) (X : Finset Nat) : List Nat :=
  ((L : Multiset Nat) + (X \ L.toFinset).val).sort (· ≤ ·)

/-- The rank in an odd code, with the `25 - p` bits it leaves out, fits in a register of 6 bits. -/
def RankFits (p c : Nat) : Prop := c % 2 = 1 → c / 2 % 64 + (25 - p) < 64

/-- A weaker condition.  The rank must not be 64, of which a register keeps the lowest six bits, which
are zero.  A larger rank sets a bit of the next register; it must not belong to the last register. -/
def RankKept (p c : Nat) : Prop :=
  c % 2 = 1 → c / 2 % 64 + (25 - p) < 64 ∨ (64 < c / 2 % 64 + (25 - p) ∧ c / 2 ^ (32 - p) + 1 < 2 ^ p)

/-- The same, given the number `m` of the payload.  After the last register comes unused space, which is
read only if `m` is larger than the number of registers. -/
def RankAllowed (m p c : Nat) : Prop :=
  c % 2 = 1 → c / 2 % 64 + (25 - p) < 64 ∨
    (64 < c / 2 % 64 + (25 - p) ∧ (c / 2 ^ (32 - p) + 1 < 2 ^ p ∨ m = 2 ^ p))

/-- The conditions for a sparse `HyperLogLogPlus` of precision `4 ≤ p ≤ 18`, in a build with overflow
checks.  Let `counts = (m, m', c)`.
* `m` is `2 ^ p`, or above it by less than what is left in the last word.
* The bytes of the sparse list can be read.
* Whatever is inserted, as long as the codes take at most `c` bytes there are at most `m'` of them. -/
def UsableSparse {I : Type} (s : Plus I) : Prop :=
  2 ^ s.precision ≤ s.counts.1 ∧ s.counts.1 ≤ 5 * ((2 ^ s.precision + 4) / 5) ∧
  ∃ L, ReadsAs (s.sparse.buf.map BitVec.toNat) L ∧
    ∀ X : Finset Nat, (∀ c ∈ X, GoodCode s.precision c) →
      let L' := withCodes L ((s.tmpset.map BitVec.toNat).toFinset ∪ X)
      gapsSize 0 L' ≤ s.counts.2.2 → L'.length ≤ s.counts.2.1

/-- The conditions without overflow checks: the registers can be indexed and the last byte ends a
number. -/
def UsableWrappingSparse {I : Type} (s : Plus I) : Prop :=
  (s.counts.1 + 4) / 5 = (2 ^ s.precision + 4) / 5 ∧ ∀ b ∈ s.sparse.buf.getLast?, b.toNat < 128

end HLL.Spec
