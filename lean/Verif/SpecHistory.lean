import Verif.SpecCount
import Verif.Model.History

/-!
# Specification of the API: the set machine

What a sketch means to its user: a builder, a precision and the set of hashes seen.  The functions
below are total and do not mention representations, orders or panics.
-/

namespace HLL.Spec

/-- The meaning of a sketch. -/
@[ext] structure Abs (I : Type) where
  builder : I → U64
  p : Nat
  S : Finset Nat

variable {I : Type}

/-- The effect of a call on the meanings of all sketches.  Inserting adds (the low `w` bits of) the
hash, merging sketches of equal precision is union, counting has no effect, reloading copies. -/
def effect (w maxP : Nat) (st : List (Abs I)) : Op I → List (Abs I)
  | .new p b => if 4 ≤ p ∧ p ≤ maxP then st ++ [⟨b, p, ∅⟩] else st
  | .clone i => match st[i]? with
    | some s => st ++ [s]
    | none => st
  | .insert _ i v => match st[i]? with
    | some s => st.set i { s with S := insert ((s.builder v).toNat % 2 ^ w) s.S }
    | none => st
  | .merge i j => match st[i]?, st[j]? with
    | some s, some t => if s.p = t.p then st.set i { s with S := s.S ∪ t.S } else st
    | _, _ => st
  | .count _ => st
  | .reload i => match st[i]? with
    | some s => st ++ [s]
    | none => st

/-- What the caller of an operation observes; `F` is the estimate as a function of precision and set. -/
def observe (maxP : Nat) (F : Nat → Finset Nat → F64) (st : List (Abs I)) : Op I → Out
  | .new p _ => if 4 ≤ p ∧ p ≤ maxP then .result (.ok ()) else .result (.error .InvalidPrecision)
  | .clone i => match st[i]? with
    | some _ => .unit
    | none => .noSuchSketch
  | .insert _ i _ => match st[i]? with
    | some _ => .unit
    | none => .noSuchSketch
  | .merge i j => match st[i]?, st[j]? with
    | some s, some t =>
      if s.p = t.p then .result (.ok ()) else .result (.error .IncompatiblePrecision)
    | _, _ => .noSuchSketch
  | .count i => match st[i]? with
    | some s => .count (F s.p s.S)
    | none => .noSuchSketch
  | .reload i => match st[i]? with
    | some _ => .unit
    | none => .noSuchSketch

/-- Meanings of all sketches after a program, from a given start. -/
def contentsFrom (w maxP : Nat) : List (Abs I) → List (Op I) → List (Abs I) :=
  List.foldl (effect w maxP)

/-- Observations of a program, from a given start. -/
def expectedFrom (w maxP : Nat) (F : Nat → Finset Nat → F64) : List (Abs I) → List (Op I) → List Out
  | _, [] => []
  | st, op :: ops => observe maxP F st op :: expectedFrom w maxP F (effect w maxP st op) ops

/-- Meanings of all sketches created by a program. -/
def contents (w maxP : Nat) (ops : List (Op I)) : List (Abs I) := contentsFrom w maxP [] ops

/-- Observations of a program. -/
def expected (w maxP : Nat) (F : Nat → Finset Nat → F64) (ops : List (Op I)) : List Out :=
  expectedFrom w maxP F [] ops

end HLL.Spec
