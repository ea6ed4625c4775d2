import Verif.SpecHistory

/-!
# Specification of `count` on targets with a small `usize`

Both estimators multiply the number of registers by itself in `usize`.  If `usize` has at most `2 p`
bits the product does not fit: with overflow checks `count` panics, without them the product is 0.
The set machine below can therefore panic in `count`.
-/

namespace HLL.Spec
open F64

variable {I : Type}

/-- What `HyperLogLogPlus::count` does on a target with `bits`-bit `usize`, `checks` telling if
overflow is checked.  The product is only computed after linear counting has been rejected; when it
wraps, the raw estimate is 0 and the bias of 0 is subtracted from it. -/
def plusCountOn (bits : Nat) (checks : Bool) (ln : F64 → F64) (bias : Nat → F64 → F64) (p : Nat)
    (S : Finset Nat) : R F64 :=
  if 2 * p < bits ∨ plusRegime ln p S ≤ 1 then .ok (plusCount ln bias p S)
  else if checks then .error .overflow
  else .ok (sub (num 0) (bias p (num 0)))

/-- What `HyperLogLogPF::count` does on such a target.  The product is computed first; when it wraps,
the raw estimate is 0, and linear counting is used as long as some register is 0. -/
def pfCountOn (bits : Nat) (checks : Bool) (ln : F64 → F64) (p : Nat) (S : Finset Nat) : R F64 :=
  if 2 * p < bits then .ok (pfCount ln p S)
  else if checks then .error .overflow
  else if (regs 32 p S).count 0 ≠ 0 then .ok (linear ln (2 ^ p) ((regs 32 p S).count 0))
  else .ok (num 0)

/-- What the caller of an operation observes if the estimate may panic. -/
def observeOn (maxP : Nat) (F : Nat → Finset Nat → R F64) (st : List (Abs I)) : Op I → R Out
  | .count i => match st[i]? with
    | some s => do
      let c ← F s.p s.S
      pure (.count c)
    | none => pure .noSuchSketch
  | op => pure (observe maxP (fun _ _ => nan) st op)

/-- Observations of a program; a panic ends it. -/
def expectedOn (w maxP : Nat) (F : Nat → Finset Nat → R F64) : List (Abs I) → List (Op I) → R (List Out)
  | _, [] => pure []
  | st, op :: ops => do
    let o ← observeOn maxP F st op
    let os ← expectedOn w maxP F (effect w maxP st op) ops
    pure (o :: os)

end HLL.Spec
