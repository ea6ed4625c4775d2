import Verif.SpecHistory

/-! # Vocabulary of the property statements about histories -/

namespace HLL

variable {St I : Type}

/-- The results of the calls `post` when they are made after the calls `pre`. -/
def later (api : Api St I) (ords : Nat → IterOrder × IterOrder) (pre post : List (Op I)) :
    R (List Out) := do
  let os ← outputs api ords (pre ++ post)
  pure (os.drop pre.length)

/-- The environment of the program is as required.
* The target can run `count` on all sketches: `usize` has more than 36 bits (so any 64-bit target),
  or it has at least 32 bits and no precision above 15 is used.
* If the program serialises and reloads sketches, then the builders it uses round-trip. -/
def Supported (cfg : Cfg) (c : Serde.Codec I) (ops : List (Op I)) : Prop :=
  (36 < cfg.usizeBits ∨ (32 ≤ cfg.usizeBits ∧ ∀ p b, Op.new p b ∈ ops → p ≤ 15)) ∧
  ((∃ i, Op.reload i ∈ ops) → ∀ p b, Op.new p b ∈ ops → c.RoundTrips b)

/-- On 64-bit targets every program without reloads is supported. -/
theorem supported64 {cfg : Cfg} (h : cfg.usizeBits = 64) (c : Serde.Codec I) {ops : List (Op I)}
    (hr : ∀ i, Op.reload i ∉ ops) : Supported cfg c ops :=
  ⟨Or.inl (by omega), fun ⟨i, hi⟩ => absurd hi (hr i)⟩

/-- A program contains no insertion. -/
def NoInsert (ops : List (Op I)) : Prop := ∀ k i v, Op.insert k i v ∉ ops

/-- A call may modify sketch `i`. -/
def Writes (op : Op I) (i : Nat) : Prop :=
  (∃ k v, op = .insert k i v) ∨ (∃ j, op = .merge i j) ∨ op = .count i

end HLL
