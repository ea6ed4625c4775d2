import Verif.Model.Command

/-!
# The evaluation program when reading and writing can fail

The system calls of `Model/Parallel.lean`, each of which may now fail (a file that cannot be opened, a disk that is
full, …).  The program calls `unwrap` on every result (evaluation/src/main.rs:173, 179, 195, 198 and 201), so the task
panics.  If a panic happens while the output file is open, `BufWriter` is dropped during unwinding: what is still in
its buffer is written if possible, and errors of these writes are ignored (std).  A panic in a task does not stop
tasks that have been started, but tasks that have not been started may be given up (rayon); `for_each` then panics and
the program ends with exit status 101.

Simplifications: nothing is assumed about how much is in the buffer when a write fails; an interrupted call, which std
repeats, is no failure; `close` does not report errors (std ignores them); a failing `File::create` leaves the file as
it was.
-/

namespace HLL.Evl

variable {Id : Type} [DecidableEq Id]

/-- How far a task has come. -/
inductive FStage where
  /-- as without failures -/
  | ordinary (s : Stage)
  /-- panicking with the output file open at position `pos`; `rest` is in the buffer -/
  | unwinding (pos : Nat) (rest : Text)

/-- Started and not at its end. -/
def FStage.active : FStage → Bool
  | .ordinary s => s.active
  | .unwinding _ _ => true

/-- A system call of a task; `failed` says whether it fails. -/
inductive FCall (t : Task Id) : (failed : Bool) → Files Id → FStage → Files Id → FStage → Prop where
  | call {F s F' s'} : Call t F s F' s' → FCall t false F (.ordinary s) F' (.ordinary s')
  /-- `File::open` (evaluation/src/main.rs:173) -/
  | openFails {F a} : t.input = some a → FCall t true F (.ordinary .waiting) F (.ordinary .panicked)
  /-- `line.unwrap()` (evaluation/src/main.rs:179) -/
  | readFails {F got} : FCall t true F (.ordinary (.reading got)) F (.ordinary .panicked)
  /-- `File::create` (evaluation/src/main.rs:195) -/
  | createFails {F y} : FCall t true F (.ordinary (.ready y)) F (.ordinary .panicked)
  /-- `write!` and `flush` (evaluation/src/main.rs:198, 201); of what is to be written, `kept` is in the buffer -/
  | writeFails {F pos kept lost} : kept ++ lost ≠ [] →
      FCall t true F (.ordinary (.writing pos (kept ++ lost))) F (.unwinding pos kept)
  /-- dropping the `BufWriter` -/
  | dropWrite {F x pos piece more} : F t.output = some x → piece ≠ [] →
      FCall t false F (.unwinding pos (piece ++ more)) (Function.update F t.output (some (writeAt x pos piece)))
        (.unwinding (pos + piece.length) more)
  | dropFails {F pos rest} : rest ≠ [] → FCall t true F (.unwinding pos rest) F (.ordinary .panicked)
  | dropDone {F pos} : FCall t false F (.unwinding pos []) F (.ordinary .panicked)

/-- The files and the stages of the tasks. -/
structure FConfig (Id : Type) (n : Nat) where
  files : Files Id
  stage : Fin n → FStage

def FConfig.running {n : Nat} (c : FConfig Id n) : Nat :=
  (Finset.univ.filter fun i => (c.stage i).active = true).card

/-- One call of one of the tasks; there are `jobs` threads. -/
def FNext {n : Nat} (T : Fin n → Task Id) (jobs : Nat) (failed : Bool) (c c' : FConfig Id n) : Prop :=
  ∃ i F s, FCall (T i) failed c.files (c.stage i) F s ∧ c' = ⟨F, Function.update c.stage i s⟩ ∧ c'.running ≤ jobs

/-- `k` calls in any order, `f` of which fail. -/
inductive FExec {n : Nat} (T : Fin n → Task Id) (jobs : Nat) : (k f : Nat) → FConfig Id n → FConfig Id n → Prop where
  | refl {c} : FExec T jobs 0 0 c c
  | step {k f failed c c' c''} : FExec T jobs k f c c' → FNext T jobs failed c' c'' →
      FExec T jobs (k + 1) (f + failed.toNat) c c''

/-- All tasks are waiting. -/
def fstart {n : Nat} (F : Files Id) : FConfig Id n := ⟨F, fun _ => .ordinary .waiting⟩

omit [DecidableEq Id] in
/-- The loop has ended: no task is running, and if there are tasks that were not started then some task panicked. -/
def FConfig.Ended {n : Nat} (c : FConfig Id n) : Prop :=
  (∀ i, (c.stage i).active = false) ∧
  ((∃ i, c.stage i = .ordinary .waiting) → ∃ i, c.stage i = .ordinary .panicked)

omit [DecidableEq Id] in
/-- The exit status 101 of a Rust program that panicked, or 0. -/
noncomputable def FConfig.status {n : Nat} (c : FConfig Id n) : Nat :=
  open Classical in if ∃ i, c.stage i = .ordinary .panicked then 101 else 0

/-- The program ends with exit status 0 and turns the files `F` into `F'`, where calls may fail.  This is what
`subprocess.run(command, check=True)` (evaluation/exp.py:31, 63) waits for; otherwise the script ends with an
exception. -/
def Succeeds (plan : Option (R Plan)) (F F' : Files Text) : Prop :=
  (plan = some (.ok .nothing) ∧ F' = F) ∨
  ∃ jobs n T k f c, plan = some (.ok (.loop jobs n T)) ∧ FExec T jobs k f (fstart F) c ∧ c.Ended ∧ c.status = 0 ∧
    F' = c.files

end HLL.Evl
