import Verif.SpecUse
import Verif.SpecCount

/-!
# When the number `m` of a payload is too large to be squared

Continues `SpecUse.lean` for a dense `HyperLogLogPlus` in a build with overflow checks.
-/

namespace HLL.Spec
open F64

/-- Linear counting `m ln(m / V)` for any numbers, which are rounded to doubles first. -/
def linearAny (ln : F64 → F64) (m V : Nat) : F64 := mul (ofNat m) (ln (div (ofNat m) (ofNat V)))

/-- `count` never needs the raw estimate: `zeros`, whenever it is read, is not 0, and linear counting
stays below the threshold.  `zeros` can fall by the number of registers that are zero. -/
def AlwaysLinear (ln : F64 → F64) (p m : Nat) (r : Registers) : Prop :=
  ∀ z, r.zeros ≤ z + ((List.range (2 ^ p)).map (packed 6 (r.buf.map BitVec.toNat))).count 0 → z ≤ r.zeros →
    z ≠ 0 ∧ le (linearAny ln m z) (num (threshold p)) = true

end HLL.Spec
