import Verif.Model.History

/-!
# Sketches that travel between processes

Serialised sketches are written to files by one process and read by another one, which may be built
with other features, by another compiler, or for another target.  A system of processes is a list of
jobs, in the order in which they are started; a job can read the files written by earlier jobs.
-/

namespace HLL

variable {St I : Type}

/-- The environment of a process: its build (`cfg`), its logarithm, the serialisation of its hash
builders, the iteration orders of its hash sets (`ords`) and those met when serialising sketch
number `n` at the end (`saveOrd n`). -/
structure Machine (I : Type) where
  cfg : Cfg
  ln : F64 → F64
  codec : Serde.Codec I
  ords : Nat → IterOrder × IterOrder
  saveOrd : Nat → IterOrder

/-- A sketch type on a machine. -/
structure Site (St I : Type) where
  api : Api St I
  ords : Nat → IterOrder × IterOrder
  /-- `Serialize` of sketch number `n` -/
  save : Nat → St → Value
  /-- `Deserialize` -/
  load : Value → Option St

/-- `HyperLogLogPlus` on a machine; the derives are at src/hyperloglogplus.rs:56. -/
def Plus.site (m : Machine I) : Site (Plus I) I where
  api := Plus.api m.cfg m.ln m.codec
  ords := m.ords
  save n s := Serde.serPlus m.codec (m.saveOrd n) s
  load v := Serde.dePlus m.cfg m.codec v

/-- `HyperLogLogPF` on a machine; the derives are at src/hyperloglog.rs:44. -/
def PF.site (m : Machine I) : Site (PF I) I where
  api := PF.api m.cfg m.ln m.codec
  ords := m.ords
  save _ s := Serde.serPF m.codec s
  load v := Serde.dePF m.cfg m.codec v

/-- A process: where it runs, the numbers of the files it reads (they become the sketches `0`, `1`, …
of its store), and its calls. At its end it writes all its sketches to new files. -/
structure Job (I : Type) where
  machine : Machine I
  inputs : List Nat
  ops : List (Op I)

/-- Running jobs one after the other. `none` if a file is missing or is not accepted. -/
def travel (site : Machine I → Site St I) :
    List Value → List (Job I) → R (Option (List (List Out)))
  | _, [] => pure (some [])
  | files, j :: js =>
    match j.inputs.mapM (fun n => (files[n]?).bind (site j.machine).load) with
    | none => pure none
    | some st => do
      let (st, os) ← run (site j.machine).api (site j.machine).ords 0 st j.ops
      let r ← travel site (files ++ st.mapIdx (site j.machine).save) js
      pure (r.map fun oss => os :: oss)

end HLL
