import Verif.Model.Parallel
import Verif.Model.Experiment

/-!
# The command lines of the evaluation program and of the script of the experiments

`main` of evaluation/src/main.rs, with the options as `clap` (3.0.0-beta.1) reads them, and the parts of
evaluation/exp.py that start it.

Simplifications: of the ways to write options only `--name value ...` is modelled, which is how the script
writes them; the model rejects the others (`-s 64`, `--size=64`, `--help`), as if they were errors.  File names
are texts, and different texts are different files, so the theorems are about directories written in
one way; the names of directories have no characters with a meaning in `glob` patterns.
-/

namespace HLL.Evl

/-! ## Options -/

/-- `Arg::with_name(name).long(name).takes_value(true)`, with `multiple` and `possible_values`. -/
structure Opt where
  name : String
  multiple : Bool := false
  possible : Option (List String) := none
  deriving DecidableEq

/-- `ArgMatches`: the options that were given, with their values, in the order in which they were given. -/
abbrev Matches := List (String × List Text)

/-- `values_of`: the values of all occurrences of the option. -/
def valuesOf (m : Matches) (name : String) : Option (List Text) :=
  match m.filter fun e => e.1 = name with
  | [] => none
  | l => some (l.flatMap Prod.snd)

/-- `value_of`: the first value. -/
def valueOf (m : Matches) (name : String) : Option Text := (valuesOf m name).bind List.head?

/-- An argument that `clap` takes as a value and not as an option. -/
def isValue (t : Text) : Bool := t.head? ≠ some '-' || t = ['-']

/-- `possible_values`. -/
def Opt.accepts (o : Opt) (t : Text) : Bool :=
  match o.possible with
  | none => true
  | some l => l.any fun s => s.toList = t

/-- The end of the values of an option; there must be one. -/
def closeOption (cur : Option (Opt × List Text)) (m : Matches) : Option Matches :=
  match cur with
  | none => some m
  | some (_, []) => none
  | some (o, vs) => some (m ++ [(o.name, vs)])

/-- The arguments after a subcommand; `cur` is the option whose values are being read.  An unknown option, a value
without option, a value that is not possible and an option given twice are errors; an option with `multiple` may have
several values and may be given several times. -/
def parseArgs (opts : List Opt) : (cur : Option (Opt × List Text)) → Matches → List Text → Option Matches
  | cur, m, [] => closeOption cur m
  | cur, m, t :: ts =>
    if isValue t then
      match cur with
      | none => none
      | some (o, vs) =>
        if (vs = [] ∨ o.multiple) ∧ o.accepts t then parseArgs opts (some (o, vs ++ [t])) m ts else none
    else
      match opts.find? fun o => ("--" ++ o.name).toList = t with
      | none => none
      | some o => do
        let m ← closeOption cur m
        if (valuesOf m o.name).isSome ∧ ¬ o.multiple then none else parseArgs opts (some (o, [])) m ts

/-- The options of `gen` (evaluation/src/main.rs:208-238), all of them required. -/
def genOpts : List Opt :=
  [{ name := "size", possible := some ["32", "64"] }, { name := "count" }, { name := "runs" }, { name := "output" }]

/-- The options of `run` (evaluation/src/main.rs:240-293). -/
def runOpts : List Opt :=
  [{ name := "type", possible := some ["hll", "hllp"] }, { name := "mode", possible := some ["hashes", "cardinalities"] },
    { name := "precision" }, { name := "input", multiple := true }, { name := "runs" }, { name := "cardinalities" },
    { name := "output" }]

/-- All of these options were given. -/
def given (m : Matches) (names : List String) : Bool := names.all fun x => (valuesOf m x).isSome

/-- `required` and `required_if` of the options of `run`. -/
def runRequired (m : Matches) : Bool :=
  given m ["type", "mode", "precision", "output"] &&
    (valueOf m "mode" ≠ some "hashes".toList || given m ["input"]) &&
    (valueOf m "mode" ≠ some "cardinalities".toList || given m ["runs", "cardinalities"])

/-- The subcommand with its options. -/
inductive Sub where
  | none
  | gen (m : Matches)
  | run (m : Matches)

/-- `App::new("evl")...get_matches()` (evaluation/src/main.rs:295-305): the option `jobs` and the subcommand, or `none`
if `clap` ends the program with a message. -/
def commandLine : (jobs : Option Text) → List Text → Option (Option Text × Sub)
  | jobs, [] => some (jobs, .none)
  | jobs, t :: ts =>
    if t = "gen".toList then
      match parseArgs genOpts none [] ts with
      | some m => if given m ["size", "count", "runs", "output"] then some (jobs, .gen m) else none
      | none => none
    else if t = "run".toList then
      match parseArgs runOpts none [] ts with
      | some m => if runRequired m then some (jobs, .run m) else none
      | none => none
    else if t = "--jobs".toList then
      match ts with
      | j :: ts => if jobs.isNone ∧ isValue j then commandLine (some j) ts else none
      | [] => none
    else none

/-! ## The program -/

/-- The loop that the program executes, if it comes to one: the number of threads and the tasks. -/
inductive Plan where
  | nothing
  | loop (jobs n : Nat) (tasks : Fin n → Task Text)

/-- What is not determined by the command line and the files: the number of threads that `rayon` uses by default,
the random values (of each run), the order of the elements in hash sets (in each task). -/
structure Env where
  cpus : Nat
  draw32 : Nat → Nat → U32
  draw64 : Nat → Nat → U64
  ords : Nat → Nat → IterOrder × IterOrder

/-- `generate` (evaluation/src/main.rs:52-71). -/
def generateMain (cfg : Cfg) (draw : Nat → Nat → Nat) (threads : Nat) (m : Matches) : R Plan := do
  let size ← unwrap (valueOf m "size")
  let count ← unwrap (parse cfg.usizeBits (← unwrap (valueOf m "count")))
  let runs ← unwrap (parse cfg.usizeBits (← unwrap (valueOf m "runs")))
  let output ← unwrap (valueOf m "output")
  pure (.loop threads runs fun r => genTask id size output ((List.range count).map (draw r)) r)

/-- `run_impls!` (evaluation/src/main.rs:73-165): `hashes` and `cards` are the bodies of the loops, given the number of
the task and the text of the option `precision`. -/
def runMain (cfg : Cfg) (hashes cards : Nat → Text → Text → R Text) (size : Text) (threads : Nat) (m : Matches) :
    R Plan := do
  let mode ← unwrap (valueOf m "mode")
  let precision ← unwrap (valueOf m "precision")
  let p ← unwrap (parse 8 precision)
  let output ← unwrap (valueOf m "output")
  if mode = "hashes".toList then
    let files ← unwrap (valuesOf m "input")
    pure (.loop threads files.length fun i => hashesTask id (hashes i precision) p output files[i])
  else if mode = "cardinalities".toList then
    let runs ← unwrap (parse cfg.usizeBits (← unwrap (valueOf m "runs")))
    let cardinalities ← unwrap (valueOf m "cardinalities")
    pure (.loop threads runs fun r => cardsTask id (cards r precision) p size output cardinalities r)
  else pure .nothing

/-- `main` (evaluation/src/main.rs:207-332): `none` if `clap` ends the program, `error` if it panics before the loop.
`ThreadPoolBuilder` takes 0 threads as a request for the default. -/
def main (cfg : Cfg) (ln : F64 → F64) (c32 : Serde.Codec U32) (c64 : Serde.Codec U64) (env : Env)
    (argv : List Text) : Option (R Plan) :=
  (commandLine none argv).map fun (jobs, sub) => do
    let j ← unwrap (parse cfg.usizeBits (jobs.getD "1".toList))
    let threads := if j = 0 then env.cpus else j
    match sub with
    | .none => pure .nothing
    | .gen m =>
      if valueOf m "size" = some "32".toList then generateMain cfg (fun r i => (env.draw32 r i).toNat) threads m
      else if valueOf m "size" = some "64".toList then generateMain cfg (fun r i => (env.draw64 r i).toNat) threads m
      else pure .nothing
    | .run m =>
      if valueOf m "type" = some "hll".toList then
        runMain cfg (fun i => run cfg ln c32 (env.ords i)) (fun r => runAt cfg ln c32 (env.ords r) (env.draw32 r))
          "32".toList threads m
      else if valueOf m "type" = some "hllp".toList then
        runMain cfg (fun i => runPlus cfg ln c64 (env.ords i))
          (fun r => runPlusAt cfg ln c64 (env.ords r) (env.draw64 r)) "64".toList threads m
      else pure .nothing

/-- The program ends with success and turns the files `F` into `F'`. -/
def Completes (plan : Option (R Plan)) (F F' : Files Text) : Prop :=
  (plan = some (.ok .nothing) ∧ F' = F) ∨
  ∃ jobs n T k c, plan = some (.ok (.loop jobs n T)) ∧ Exec T jobs k (start F) c ∧
    (∀ i, c.stage i = .finished) ∧ F' = c.files

end HLL.Evl

namespace HLL.Exp
open Evl

/-- `str(n)`. -/
def str (n : ℤ) : Text := (toString n).toList

/-- The command of `prepare` for hashes (evaluation/exp.py:21-29), without the name of the program. -/
def prepareCommand (jobs : ℤ) (size : Text) (count runs : ℤ) (output : Text) : List Text :=
  ["--jobs".toList, str jobs, "gen".toList, "--size".toList, size, "--count".toList, str count,
    "--runs".toList, str runs, "--output".toList, output]

/-- The beginning of the command of `run` (evaluation/exp.py:44-52). -/
def runCommand (jobs : ℤ) (type mode : Text) (precision : ℤ) (output : Text) : List Text :=
  ["--jobs".toList, str jobs, "run".toList, "--type".toList, type, "--mode".toList, mode,
    "--precision".toList, str precision, "--output".toList, output]

/-- The command of `run` for hashes (evaluation/exp.py:44-52, 59-61); `files` is the result of `glob`. -/
def runHashesCommand (jobs : ℤ) (type : Text) (precision : ℤ) (output : Text) (files : List Text) : List Text :=
  runCommand jobs type "hashes".toList precision output ++ "--input".toList :: files

/-- The command of `run` for cardinalities (evaluation/exp.py:44-58). -/
def runCardinalitiesCommand (jobs : ℤ) (type : Text) (precision : ℤ) (output : Text) (runs : ℤ)
    (cardinalities : Text) : List Text :=
  runCommand jobs type "cardinalities".toList precision output ++
    ["--runs".toList, str runs, "--cardinalities".toList, cardinalities]

/-- `os.path.join(output, 'cardinalities.dat')` (evaluation/exp.py:33). -/
def cardinalitiesPath (output : Text) : Text := join output "cardinalities.dat".toList

/-- `prepare` for cardinalities (evaluation/exp.py:33-38), once these have been computed. -/
def prepareCardinalities (output : Text) (cardinalities : List ℤ) (F : Files Text) : Files Text :=
  Function.update F (cardinalitiesPath output) (some (cardinalitiesFile cardinalities))

/-- `glob.glob('{}/*.dat'.format(dir))` (evaluation/exp.py:61 and 135): the paths, in any order. -/
def Globbed (F : Files Text) (dir : Text) (L : List Text) : Prop :=
  L.Nodup ∧ ∀ path, path ∈ L ↔ F path ≠ none ∧ ∃ name : Text, path = dir ++ '/' :: name ∧ '/' ∉ name ∧
    name.head? ≠ some '.' ∧ ".dat".toList <:+ name

end HLL.Exp
