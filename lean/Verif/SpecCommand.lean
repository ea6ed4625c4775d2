import Verif.SpecNumbers

/-! # The command lines of the evaluation program, described without the reader -/

namespace HLL.Spec

/-- A word that does not look like an option; a hyphen alone does not. -/
def Plain (t : List Char) : Prop := t = ['-'] ∨ t.head? ≠ some '-'

/-- Options with their values, in the order in which they are written. -/
abbrev Options := List (String × List (List Char))

/-- `--name value ...` for each of the options. -/
def words (o : Options) : List (List Char) := o.flatMap fun e => ("--" ++ e.1).toList :: e.2

/-- The option `name` is there once, and with one value. -/
def Once (o : Options) (name : String) (v : List Char) : Prop := (o.filter fun e => e.1 = name) = [(name, [v])]

/-- The option `name` is not there, or once and with one value. -/
def Optional (o : Options) (name : String) : (v : Option (List Char)) → Prop
  | none => ∀ e ∈ o, e.1 ≠ name
  | some v => Once o name v

/-- The options of `gen` (evaluation/src/main.rs:208-238) in some order. -/
structure GenOptions (o : Options) (size count runs output : List Char) : Prop where
  sizes : size = "32".toList ∨ size = "64".toList
  known : ∀ e ∈ o, e.1 ∈ ["size", "count", "runs", "output"]
  plain : ∀ e ∈ o, ∀ v ∈ e.2, Plain v
  size : Once o "size" size
  count : Once o "count" count
  runs : Once o "runs" runs
  output : Once o "output" output

/-- The options of `run` (evaluation/src/main.rs:240-293) in some order.  The option `input` can be there several times,
and each time with several values, and `inputs` are all of its values. -/
structure RunOptions (o : Options) (type mode precision output : List Char) (inputs : List (List Char))
    (runs cardinalities : Option (List Char)) : Prop where
  types : type = "hll".toList ∨ type = "hllp".toList
  modes : mode = "hashes".toList ∧ inputs ≠ [] ∨
    mode = "cardinalities".toList ∧ runs ≠ none ∧ cardinalities ≠ none
  known : ∀ e ∈ o, e.1 ∈ ["type", "mode", "precision", "output", "input", "runs", "cardinalities"]
  plain : ∀ e ∈ o, ∀ v ∈ e.2, Plain v
  type : Once o "type" type
  mode : Once o "mode" mode
  precision : Once o "precision" precision
  output : Once o "output" output
  runs : Optional o "runs" runs
  cardinalities : Optional o "cardinalities" cardinalities
  values : ∀ e ∈ o, e.2 ≠ []
  input : (o.filter fun e => e.1 = "input").flatMap Prod.snd = inputs

/-- What is written before the subcommand: nothing, which is the same as one job, or the number of jobs. -/
def Jobs (front : List (List Char)) (j : List Char) : Prop :=
  front = [] ∧ j = "1".toList ∨ front = ["--jobs".toList, j] ∧ Plain j

end HLL.Spec
