import Verif.Model.Evaluation
import Mathlib.Data.Finset.Sort

/-!
# Model of the script of the experiments, `evaluation/exp.py`

Modelled: the cardinalities at which the second experiment estimates (`generate_cardinalities`, `prepare`),
and reading the results (`calculate_statistics`).  Python's `float` is IEEE-754 binary64, like `f64`.  Not
modelled: the command line of the script, plotting, and numpy's `mean`, `median` and `std`,
which are parameters.  The commands with which `evl` is started are in `Model/Command.lean`.
-/

namespace HLL.Exp
open Evl

/-- The exceptions that the modelled parts of the script can raise. -/
inductive PyError where
  | OverflowError
  | ValueError
  | IndexError
  | ZeroDivisionError
  deriving DecidableEq, Repr

/-- `x < n` for a `float` and an `int`: Python compares the exact values. -/
def lessInt (x : F64) (n : ℤ) : Bool :=
  match x with
  | .nan => false
  | .inf neg => neg
  | .negZero => decide (0 < n)
  | .fin q => decide (q < n)

/-- `int(x)` for a `float`: the integer part. -/
def int : F64 → Except PyError ℤ
  | .nan => .error .ValueError
  | .inf _ => .error .OverflowError
  | .negZero => .ok 0
  | .fin q => .ok (if 0 ≤ q then ⌊q⌋ else ⌈q⌉)

/-- The loop of `generate_cardinalities` (evaluation/exp.py:171-178), in which `data` is a set; `int(cur)` is evaluated
in both cases of the condition.  `none` means
that the loop is still running after `fuel` evaluations of its condition.  `cur` is first the integer 1,
which behaves here like the float 1.0. -/
def cardinalitiesLoop (ratio : F64) (max : ℤ) :
    (fuel : Nat) → (cur : F64) → (data : Finset ℤ) → Option (Except PyError (Finset ℤ))
  | 0, _, _ => none
  | fuel + 1, cur, data =>
    match int cur with
    | .error e => some (.error e)
    | .ok k =>
      if lessInt cur max then cardinalitiesLoop ratio max fuel (F64.mul cur ratio) (insert k data)
      else some (.ok (insert k data))

/-- `generate_cardinalities` (evaluation/exp.py:169-180), with the default `ratio=1.007`. -/
def generateCardinalities (fuel : Nat) (max : ℤ) : Option (Except PyError (List ℤ)) :=
  (cardinalitiesLoop (F64.ofDec 1007 3) max fuel (F64.ofNat 1) ∅).map
    (Except.map fun data => data.sort (· ≤ ·))

/-- `'\n'.join(map(str, cardinalities))`, the file that `prepare` writes (evaluation/exp.py:35-38). -/
def cardinalitiesFile (cardinalities : List ℤ) : Text :=
  List.intercalate ['\n'] (cardinalities.map fun t => (toString t).toList)

/-- `fp.readline()` (evaluation/exp.py:144): a line with its line break, and the rest of the file. -/
def readline : Text → Text × Text
  | [] => ([], [])
  | c :: cs => if c = '\n' then (['\n'], cs) else (c :: (readline cs).1, (readline cs).2)

/-- Removal of white space on both sides. -/
def strip (s : Text) : Text :=
  ((s.dropWhile Char.isWhitespace).reverse.dropWhile Char.isWhitespace).reverse

/-- `float(s)` for decimal digits between white space.  Signs, fractions, exponents and underscores, which
`float` accepts too but `evl` does not write, are not modelled: they are a `ValueError` here. -/
def float (s : Text) : Except PyError F64 :=
  match strip s with
  | [] => .error .ValueError
  | c :: cs =>
    if (c :: cs).all Char.isDigit then
      .ok (F64.ofNat ((c :: cs).foldl (fun n d => n * 10 + (d.toNat - 48)) 0))
    else .error .ValueError

/-- `abs(x)`. -/
def abs (x : F64) : F64 := if x.sign then F64.neg x else x

/-- `list(map(float, values.split(' ')))` (evaluation/exp.py:152). -/
def lineValues (line : Text) : Except PyError (List F64) := (line.splitOn ' ').mapM float

/-- `l[i]`. -/
def item (l : List F64) (i : Nat) : Except PyError F64 :=
  match l[i]? with
  | some x => .ok x
  | none => .error .IndexError

/-- `abs(line[1] - line[0]) / line[0]` (evaluation/exp.py:156). -/
def relativeError (line : List F64) : Except PyError F64 := do
  let b ← item line 1
  let a ← item line 0
  if a = .fin 0 ∨ a = .negZero then .error .ZeroDivisionError
  else pure (F64.div (abs (F64.sub b a)) a)

/-- The loop of `calculate_statistics` (evaluation/exp.py:140-161): for each line, the cardinality and the
relative errors in the files that have the line.  Every iteration reads at least a character, hence the
fuel. -/
def statisticsLoop : (fuel : Nat) → (files : List Text) → Except PyError (List (ℤ × List F64))
  | 0, _ => pure []
  | fuel + 1, files => do
    let lines := (files.map fun fp => (readline fp).1).filter fun line => line ≠ []
    if lines = [] then pure []
    else do
      let values ← lines.mapM lineValues
      let errors ← values.mapM relativeError
      let first ← item (values.headD []) 0
      let c ← int first
      let rest ← statisticsLoop fuel (files.map fun fp => (readline fp).2)
      pure ((c, errors) :: rest)

/-- `calculate_statistics` (evaluation/exp.py:131-166): cardinalities, means, medians and standard deviations.
`files` are the contents of the files, in the order in which `glob` returns them. -/
def calculateStatistics (mean median std : List F64 → F64) (files : List Text) :
    Except PyError (List ℤ × List F64 × List F64 × List F64) := do
  let rows ← statisticsLoop ((files.map List.length).sum + 1) files
  pure (rows.map Prod.fst, rows.map fun r => mean r.2, rows.map fun r => median r.2,
    rows.map fun r => std r.2)

end HLL.Exp
