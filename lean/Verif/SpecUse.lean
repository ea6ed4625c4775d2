import Verif.SpecDe

/-!
# Which deserialised sketches can be used without panics

Written on the fields of the sketch as they appear in a payload, in terms of numbers only.  Unlike the
checks of `SpecDe.lean` these are not requirements of good form: they are the weakest conditions under
which no program panics.
-/

namespace HLL.Spec

/-- The conditions for `HyperLogLogPF` in a build with overflow checks and `usize` of `W` bits.
* Precisions 0 and 1 and those above 31 do not work: the shifts overflow, and with precision 1 a rank of
  32 does not fit in a register.
* The square of `count` is computed in `usize`.
* There is a word for each of the `2 ^ p` registers.
* `zeros` is at least the number of registers that are zero: it is decremented for each.
* For the precisions that `new` accepts the sketch may be merged into one made by `new`; the registers in
  excess of `2 ^ p` that the iterator yields must be zero and fall into the words of the latter. -/
def UsablePF {I : Type} (W : Nat) (s : PF I) : Prop :=
  2 ≤ s.precision ∧ s.precision ≤ 31 ∧ s.count * s.count < 2 ^ W ∧
  2 ^ s.precision ≤ 6 * s.registers.buf.length ∧
  ((List.range (2 ^ s.precision)).map (packed 5 (s.registers.buf.map BitVec.toNat))).count 0 ≤
    s.registers.zeros ∧
  (4 ≤ s.precision → s.precision ≤ 16 →
    ∀ j < min s.registers.count (6 * s.registers.buf.length), 2 ^ s.precision ≤ j →
      j < 6 * ((2 ^ s.precision + 5) / 6) ∧ packed 5 (s.registers.buf.map BitVec.toNat) j = 0)

/-- The conditions for `HyperLogLogPF` in a build without overflow checks, where shift amounts are
reduced modulo 32: only indices can be out of range. -/
def UsableWrappingPF {I : Type} (s : PF I) : Prop :=
  2 ^ (if s.precision % 32 = 0 then 32 else s.precision % 32) ≤ 6 * s.registers.buf.length ∧
  (4 ≤ s.precision → s.precision ≤ 16 →
    min s.registers.count (6 * s.registers.buf.length) ≤ 6 * ((2 ^ s.precision + 5) / 6))

/-- The conditions on the registers of a dense `HyperLogLogPlus` of precision `4 ≤ p ≤ 18`, in a build
with overflow checks: a word for each of the `2 ^ p` registers; `zeros` at least the number of registers
that are zero; registers in excess of `2 ^ p` that the iterator yields are zero and fall into the words
of a sketch of this precision. -/
def UsableDense (p : Nat) (r : Registers) : Prop :=
  2 ^ p ≤ 5 * r.buf.length ∧
  ((List.range (2 ^ p)).map (packed 6 (r.buf.map BitVec.toNat))).count 0 ≤ r.zeros ∧
  ∀ j < min r.count (5 * r.buf.length), 2 ^ p ≤ j →
    j < 5 * ((2 ^ p + 4) / 5) ∧ packed 6 (r.buf.map BitVec.toNat) j = 0

/-- The same without overflow checks. -/
def UsableWrappingDense (p : Nat) (r : Registers) : Prop :=
  2 ^ p ≤ 5 * r.buf.length ∧ min r.count (5 * r.buf.length) ≤ 5 * ((2 ^ p + 4) / 5)

end HLL.Spec
