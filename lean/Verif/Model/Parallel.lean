import Verif.Model.Evaluation
import Mathlib.Data.Fintype.Card
import Mathlib.Logic.Function.Basic

/-!
# The evaluation program with several threads

`for_each` over a parallel iterator (evaluation/src/main.rs:64, 87 and 127): the tasks share nothing but the
file system.  A task opens its input file and reads it to the end, computes, creates (that is, empties) its
output file and writes to it; each of these is a sequence of system calls.  A read may return any non-empty part
of what is left, and a write may take any non-empty part of what is left, so nothing is assumed about the
buffers.  The calls of different tasks may be interleaved in any way.

Simplifications: characters are bytes (all the texts written are ASCII); nothing but the program changes the
files; the only I/O error is opening a file that does not exist; a line that cannot be parsed is noticed when
the file has been read to its end; at most `jobs` tasks are between their start and their end at any time, but
which of the waiting tasks a thread takes next is arbitrary (rayon splits the range recursively and steals).
-/

namespace HLL.Evl

/-- The files, by identity; `none` if there is no such file. -/
abbrev Files (Id : Type) := Id → Option Text

/-- One call of the closure passed to `for_each`: what it reads (nothing in `generate`), what it writes, and the
text it computes. -/
structure Task (Id : Type) where
  input : Option Id
  output : Id
  work : Text → R Text

/-- How far a task has come.  Every task has its own handles, so the position of the input file is the length
of what was read, and `pos` that of the output file. -/
inductive Stage where
  /-- not started -/
  | waiting
  /-- the input file is open, `got` was read -/
  | reading (got : Text)
  /-- the text to be written is known, the output file was not opened -/
  | ready (text : Text)
  /-- the output file is open at position `pos`, `rest` is to be written -/
  | writing (pos : Nat) (rest : Text)
  | finished
  | panicked

/-- Started and not at its end. -/
def Stage.active : Stage → Bool
  | .reading _ | .ready _ | .writing _ _ => true
  | _ => false

/-- At its end. -/
def Stage.over : Stage → Bool
  | .finished | .panicked => true
  | _ => false

/-- The file `x` after writing `piece` at position `pos` (POSIX: a gap is filled with zeros). -/
def writeAt (x : Text) (pos : Nat) (piece : Text) : Text :=
  x.take pos ++ List.replicate (pos - x.length) (Char.ofNat 0) ++ piece ++ x.drop (pos + piece.length)

variable {Id : Type} [DecidableEq Id]

/-- The system calls of a task (`load`, evaluation/src/main.rs:168-187; `save`, evaluation/src/main.rs:189-202; the
computation between them, evaluation/src/main.rs:65-70, 88-118 and 128-160). -/
inductive Call (t : Task Id) : Files Id → Stage → Files Id → Stage → Prop where
  /-- `generate` reads no file. -/
  | draw {F y} : t.input = none → t.work [] = .ok y → Call t F .waiting F (.ready y)
  | drawPanic {F e} : t.input = none → t.work [] = .error e → Call t F .waiting F .panicked
  /-- `File::open(filepath).unwrap()` -/
  | missing {F a} : t.input = some a → F a = none → Call t F .waiting F .panicked
  | open {F a x} : t.input = some a → F a = some x → Call t F .waiting F (.reading [])
  /-- `reader.lines()`, until nothing more is returned -/
  | read {F a x got piece more} : t.input = some a → F a = some x → piece ≠ [] →
      x.drop got.length = piece ++ more → Call t F (.reading got) F (.reading (got ++ piece))
  | eof {F a x got y} : t.input = some a → F a = some x → x.drop got.length = [] → t.work got = .ok y →
      Call t F (.reading got) F (.ready y)
  | eofPanic {F a x got e} : t.input = some a → F a = some x → x.drop got.length = [] →
      t.work got = .error e → Call t F (.reading got) F .panicked
  /-- `File::create` -/
  | create {F y} : Call t F (.ready y) (Function.update F t.output (some [])) (.writing 0 y)
  /-- `write!` and `flush`, through the buffer -/
  | write {F x pos piece more} : F t.output = some x → piece ≠ [] →
      Call t F (.writing pos (piece ++ more)) (Function.update F t.output (some (writeAt x pos piece)))
        (.writing (pos + piece.length) more)
  | close {F pos} : Call t F (.writing pos []) F .finished

/-- The files and the stages of the tasks. -/
structure Config (Id : Type) (n : Nat) where
  files : Files Id
  stage : Fin n → Stage

/-- The number of tasks that were started and are not at their end. -/
def Config.running {n : Nat} (c : Config Id n) : Nat := (Finset.univ.filter fun i => (c.stage i).active = true).card

/-- One call of one of the tasks; there are `jobs` threads. -/
def Next {n : Nat} (T : Fin n → Task Id) (jobs : Nat) (c c' : Config Id n) : Prop :=
  ∃ i F s, Call (T i) c.files (c.stage i) F s ∧ c' = ⟨F, Function.update c.stage i s⟩ ∧ c'.running ≤ jobs

/-- `k` calls, in any order. -/
inductive Exec {n : Nat} (T : Fin n → Task Id) (jobs : Nat) : Nat → Config Id n → Config Id n → Prop where
  | refl {c} : Exec T jobs 0 c c
  | step {k c c' c''} : Exec T jobs k c c' → Next T jobs c' c'' → Exec T jobs (k + 1) c c''

/-- All tasks are waiting. -/
def start {n : Nat} (F : Files Id) : Config Id n := ⟨F, fun _ => .waiting⟩

/-! ## The tasks of the program -/

/-- The parts of a path between slashes. -/
def partsFrom (cur : Text) : Text → List Text
  | [] => [cur]
  | c :: cs => if c = '/' then cur :: partsFrom [] cs else partsFrom (cur ++ [c]) cs

/-- `Path::file_name` (std): the last part, not counting empty parts and `.`, unless it is `..`. -/
def fileName (path : Text) : Option Text :=
  match ((partsFrom [] path).filter fun c => c ≠ [] ∧ c ≠ ['.']).getLast? with
  | some c => if c = ['.', '.'] then none else some c
  | none => none

/-- `Path::new(output).join(filename)` (std) for a name without slash at its beginning. -/
def join (output name : Text) : Text :=
  if output = [] ∨ output.getLast? = some '/' then output ++ name else output ++ '/' :: name

/-- The output file of mode `hashes`, `est-p{precision}-{basename}` (evaluation/src/main.rs:114-115). -/
def hashesName (p : Nat) (base : Text) : Text := "est-p".toList ++ display p ++ ['-'] ++ base

/-- The output file of mode `cardinalities`, `est-p{}-cards-s{}-r{}.dat` (evaluation/src/main.rs:155-158). -/
def cardsName (p : Nat) (size : Text) (r : Nat) : Text :=
  "est-p".toList ++ display p ++ "-cards-s".toList ++ size ++ "-r".toList ++ display r ++ ".dat".toList

omit [DecidableEq Id] in
/-- A run of `generate` (evaluation/src/main.rs:64-70).  `loc` says which file a path refers to. -/
def genTask (loc : Text → Id) (size output : Text) (values : List Nat) (r : Nat) : Task Id where
  input := none
  output := loc (join output (generateName size r))
  work := fun _ => pure (generate values)

/-- A file in mode `hashes` (evaluation/src/main.rs:87-119): `run` computes the text, `p` is the value of the option
`precision`.  The last part of the path is needed when the estimates have been computed. -/
def hashesTask (loc : Text → Id) (run : Text → R Text) (p : Nat) (output file : Text) : Task Id where
  input := some (loc file)
  output := loc (join output (hashesName p ((fileName file).getD [])))
  work := fun text => do
    let y ← run text
    let _ ← unwrap (fileName file)
    pure y

/-- A run in mode `cardinalities` (evaluation/src/main.rs:127-161). -/
def cardsTask (loc : Text → Id) (run : Text → R Text) (p : Nat) (size output cardinalities : Text) (r : Nat) :
    Task Id where
  input := some (loc cardinalities)
  output := loc (join output (cardsName p size r))
  work := run

end HLL.Evl
