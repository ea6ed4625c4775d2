import Verif.Model.Serde

/-!
# Histories of API calls

A program using the crate holds a number of sketches and calls the public functions on them in
any order.  The store is the list of sketches created so far.
-/

namespace HLL

/-- The three public ways to insert a value: `insert`, `insert_any`, `add`. -/
inductive InsertKind where
  | insert | insertAny | add
  deriving DecidableEq, Repr

/-- The public interface of a sketch type with state `St` and values `I`.  The `IterOrder`
arguments are the iteration orders of the hash sets involved in the call. -/
structure Api (St I : Type) where
  new : Nat → (I → U64) → R (Except HyperLogLogError St)
  insert : IterOrder → InsertKind → St → I → R St
  merge : IterOrder → IterOrder → St → St → R (St × Except HyperLogLogError Unit)
  count : IterOrder → St → R (St × F64)
  /-- serialise, then deserialise; `none` if deserialisation fails -/
  reload : IterOrder → St → R (Option St)

/-- One call.  Sketches are named by their position in the store. -/
inductive Op (I : Type) where
  /-- `new(p, b)`; a successful call adds a sketch to the store -/
  | new (p : Nat) (b : I → U64)
  /-- `store[i].clone()` is added to the store -/
  | clone (i : Nat)
  /-- insertion of a value into `store[i]` -/
  | insert (k : InsertKind) (i : Nat) (v : I)
  /-- `store[i].merge(&store[j])` -/
  | merge (i j : Nat)
  /-- `store[i].count()` -/
  | count (i : Nat)
  /-- a serialised and deserialised copy of `store[i]` is added to the store -/
  | reload (i : Nat)

/-- What the caller observes. -/
inductive Out where
  | unit
  | result (r : Except HyperLogLogError Unit)
  | count (c : F64)
  | deError
  /-- the call names a sketch that does not exist; it has no effect -/
  | noSuchSketch
  deriving DecidableEq

variable {St I : Type}

/-- Execution of one call. -/
def step (api : Api St I) (ord : IterOrder × IterOrder) (st : List St) : Op I → R (List St × Out)
  | .new p b => do
    match ← api.new p b with
    | .ok s => pure (st ++ [s], .result (.ok ()))
    | .error e => pure (st, .result (.error e))
  | .clone i =>
    match st[i]? with
    | some s => pure (st ++ [s], .unit)
    | none => pure (st, .noSuchSketch)
  | .insert k i v =>
    match st[i]? with
    | some s => do
      let s ← api.insert ord.1 k s v
      pure (st.set i s, .unit)
    | none => pure (st, .noSuchSketch)
  | .merge i j =>
    match st[i]?, st[j]? with
    | some s, some t => do
      let (s, r) ← api.merge ord.1 ord.2 s t
      pure (st.set i s, .result r)
    | _, _ => pure (st, .noSuchSketch)
  | .count i =>
    match st[i]? with
    | some s => do
      let (s, c) ← api.count ord.1 s
      pure (st.set i s, .count c)
    | none => pure (st, .noSuchSketch)
  | .reload i =>
    match st[i]? with
    | some s => do
      match ← api.reload ord.1 s with
      | some s => pure (st ++ [s], .unit)
      | none => pure (st, .deError)
    | none => pure (st, .noSuchSketch)

/-- Execution of a sequence of calls; `ords n` are the iteration orders of hash sets in call `n`.
A panic ends the program. -/
def run (api : Api St I) (ords : Nat → IterOrder × IterOrder) :
    (n : Nat) → List St → List (Op I) → R (List St × List Out)
  | _, st, [] => pure (st, [])
  | n, st, op :: ops => do
    let (st, o) ← step api (ords n) st op
    let (st, os) ← run api ords (n + 1) st ops
    pure (st, o :: os)

/-- The interface of `HyperLogLogPlus`; `ln` is the logarithm, `c` the builder's serialisation. -/
def Plus.api (cfg : Cfg) (ln : F64 → F64) (c : Serde.Codec I) : Api (Plus I) I where
  new := Plus.new cfg
  insert ord k s v := match k with
    | .insert => Plus.insert cfg ord s v
    | .insertAny => Plus.insertAny cfg ord s v
    | .add => Plus.add cfg ord s v
  merge := Plus.merge cfg
  count := Plus.count cfg ln
  reload ord s := pure (Serde.dePlus cfg c (Serde.serPlus c ord s))

/-- The interface of `HyperLogLogPF`. -/
def PF.api (cfg : Cfg) (ln : F64 → F64) (c : Serde.Codec I) : Api (PF I) I where
  new := PF.new cfg
  insert _ k s v := match k with
    | .insert => PF.insert cfg s v
    | .insertAny => PF.insertAny cfg s v
    | .add => PF.add cfg s v
  merge _ _ := PF.merge cfg
  count _ s := do
    let c ← PF.estimate cfg ln s
    pure (s, c)
  reload _ s := pure (Serde.dePF cfg c (Serde.serPF c s))

/-- The outputs of a whole program, starting with no sketches. -/
def outputs (api : Api St I) (ords : Nat → IterOrder × IterOrder) (ops : List (Op I)) :
    R (List Out) := do
  let (_, os) ← run api ords 0 [] ops
  pure os

end HLL
