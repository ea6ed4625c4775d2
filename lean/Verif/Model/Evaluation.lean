import Verif.Model.History

/-!
# Model of the evaluation program, `evaluation/src/main.rs`

Modelled: the pass-through hasher, the text files, generating hashes (`evl gen`) and the experiments
(`evl run`), for both types and both modes.  The macro `run_impls!` is a definition with the type of the
sketch as a parameter.  Not modelled here: the definition of the command line with `clap` (see `Model/Command.lean`; option values are
texts).  Here a file is the text in it and I/O errors do not occur; the file system and the threads of `rayon`
are in `Model/Parallel.lean`.
-/

namespace HLL.Evl

/-- The contents of a text file or of an option. -/
abbrev Text := List Char

/-- `PassThroughHasher` (evaluation/src/main.rs:15). -/
structure PassThroughHasher where
  state : U64

namespace PassThroughHasher

/-- `build_hasher` (evaluation/src/main.rs:38-40). -/
def build : PassThroughHasher := ⟨0#64⟩

/-- `finish` (evaluation/src/main.rs:18-20). -/
def finish (h : PassThroughHasher) : U64 := h.state

/-- `write_u32` (evaluation/src/main.rs:24-26). -/
def writeU32 (_ : PassThroughHasher) (i : U32) : PassThroughHasher := ⟨i.setWidth 64⟩

/-- `write_u64` (evaluation/src/main.rs:28-30). -/
def writeU64 (_ : PassThroughHasher) (i : U64) : PassThroughHasher := ⟨i⟩

end PassThroughHasher

/-- The hash of a `u32`: `Hash for u32` of std calls `write_u32` once. -/
def hash32 (x : U32) : U64 := (PassThroughHasher.build.writeU32 x).finish

/-- The hash of a `u64`: `Hash for u64` of std calls `write_u64` once. -/
def hash64 (x : U64) : U64 := (PassThroughHasher.build.writeU64 x).finish

/-- `Display` of an unsigned integer (std): decimal digits. -/
def display (n : Nat) : Text := Nat.toDigits 10 n

/-- `Estimation` and its `Display` (evaluation/src/main.rs:43-49). -/
def displayEstimation (e : Nat × Nat) : Text := display e.1 ++ [' '] ++ display e.2

/-- A decimal digit. -/
def digit (c : Char) : Option Nat := if c.isDigit then some (c.toNat - 48) else none

/-- The loop of `from_str` for unsigned integers of `w` bits (std): multiply by ten and add, with
errors for other characters and for overflow. -/
def parseDigits (w : Nat) : (acc : Nat) → Text → Option Nat
  | acc, [] => some acc
  | acc, c :: cs => do
    let d ← digit c
    if acc * 10 + d < 2 ^ w then parseDigits w (acc * 10 + d) cs else none

/-- `parse::<T>()` for an unsigned integer type `T` of `w` bits (std): digits, optionally after `+`. -/
def parse (w : Nat) : Text → Option Nat
  | [] => none
  | ['+'] => none
  | '+' :: cs => parseDigits w 0 cs
  | cs => parseDigits w 0 cs

/-- Removal of a carriage return at the end of a line. -/
def stripCR (l : Text) : Text := if l.getLast? = some '\r' then l.dropLast else l

/-- `BufRead::lines` (std), `cur` being the part of the current line that was read. -/
def linesFrom (cur : Text) : Text → List Text
  | [] => if cur = [] then [] else [cur]
  | c :: cs => if c = '\n' then stripCR cur :: linesFrom [] cs else linesFrom (cur ++ [c]) cs

/-- `load::<T>` (evaluation/src/main.rs:168-187) for an unsigned type of `w` bits: one number per line. -/
def load (w : Nat) (file : Text) : R (List Nat) := (linesFrom [] file).mapM fun l => unwrap (parse w l)

/-- `save` (evaluation/src/main.rs:189-202), on the texts of the values. -/
def save (values : List Text) : Text := values.flatMap fun v => v ++ ['\n']

/-- The file that `generate` writes in one run (evaluation/src/main.rs:52-71), given the random values. -/
def generate (values : List Nat) : Text := save (values.map display)

/-- The name of that file, `hashes-s{size}-r{r}.dat` (evaluation/src/main.rs:67). -/
def generateName (size : Text) (r : Nat) : Text :=
  "hashes-s".toList ++ size ++ "-r".toList ++ display r ++ ".dat".toList

/-- `x.trunc() as u64`: casts saturate, NaN becomes 0. -/
def truncU64 : F64 → Nat
  | .nan => 0
  | .inf neg => if neg then 0 else 2 ^ 64 - 1
  | .negZero => 0
  | .fin q => min ⌊q⌋.toNat (2 ^ 64 - 1)

variable {St I : Type}

/-- The map over the hashes in mode `hashes` (evaluation/src/main.rs:95-106): insert, then estimate.  `i`
counts the values already inserted, `n` the calls (for the iteration orders of hash sets). -/
def estimateEach (cfg : Cfg) (api : Api St I) (ords : Nat → IterOrder × IterOrder) :
    (n i : Nat) → St → List I → R (List (Nat × Nat))
  | _, _, _, [] => pure []
  | n, i, s, x :: xs => do
    let s ← api.insert (ords n).1 .insert s x
    let k ← addUsize cfg i 1
    let (s, c) ← api.count (ords (n + 1)).1 s
    let es ← estimateEach cfg api ords (n + 2) (i + 1) s xs
    pure ((k % 2 ^ 64, truncU64 c) :: es)

/-- The loop `while c < *cardinality` (evaluation/src/main.rs:142-148), which runs `k` more times;
`rng c` is the value drawn when `c` values have been inserted. -/
def insertRandom (cfg : Cfg) (api : Api St I) (ords : Nat → IterOrder × IterOrder) (rng : Nat → I) :
    (k n c : Nat) → St → R (St × Nat)
  | 0, _, c, s => pure (s, c)
  | k + 1, n, c, s => do
    let s ← api.insert (ords n).1 .insert s (rng c)
    let c ← addUsize cfg c 1
    insertRandom cfg api ords rng k (n + 1) c s

/-- The map over the cardinalities in mode `cardinalities` (evaluation/src/main.rs:137-152). -/
def estimateAt (cfg : Cfg) (api : Api St I) (ords : Nat → IterOrder × IterOrder) (rng : Nat → I) :
    (n c : Nat) → St → List Nat → R (List (Nat × Nat))
  | _, _, _, [] => pure []
  | n, c, s, t :: ts => do
    let (s, c') ← insertRandom cfg api ords rng (t - c) n c s
    let (s, e) ← api.count (ords (n + (t - c))).1 s
    let es ← estimateAt cfg api ords rng (n + (t - c) + 1) c' s ts
    pure ((c' % 2 ^ 64, truncU64 e) :: es)

/-- `$impl::new(precision, PassThroughHasherBuilder {}).unwrap()` (evaluation/src/main.rs:89-91 and
129-131). -/
def create (api : Api St I) (hash : I → U64) (precision : Nat) : R St := do
  match ← api.new precision hash with
  | .ok s => pure s
  | .error _ => .error .unwrapNone

/-- One input file in mode `hashes` (evaluation/src/main.rs:76-119): the contents of the output file.
`precision` is the text of the option, `w` the width of the hashes, `ofNat` their type. -/
def runHashes (cfg : Cfg) (api : Api St I) (ords : Nat → IterOrder × IterOrder) (w : Nat)
    (ofNat : Nat → I) (hash : I → U64) (precision file : Text) : R Text := do
  let p ← unwrap (parse 8 precision)
  let s ← create api hash p
  let hashes ← load w file
  let es ← estimateEach cfg api ords 1 0 s (hashes.map ofNat)
  pure (save (es.map displayEstimation))

/-- One run in mode `cardinalities` (evaluation/src/main.rs:76-83, 120-161): the contents of the output
file.  `file` is the file with the cardinalities. -/
def runCardinalities (cfg : Cfg) (api : Api St I) (ords : Nat → IterOrder × IterOrder) (rng : Nat → I)
    (hash : I → U64) (precision file : Text) : R Text := do
  let p ← unwrap (parse 8 precision)
  let s ← create api hash p
  let ts ← load cfg.usizeBits file
  let es ← estimateAt cfg api ords rng 1 0 s ts
  pure (save (es.map displayEstimation))

/-- `run` in mode `hashes` (evaluation/src/main.rs:204). -/
def run (cfg : Cfg) (ln : F64 → F64) (c : Serde.Codec U32) (ords : Nat → IterOrder × IterOrder) :
    (precision file : Text) → R Text :=
  runHashes cfg (PF.api cfg ln c) ords 32 (BitVec.ofNat 32) hash32

/-- `run` in mode `cardinalities` (evaluation/src/main.rs:204). -/
def runAt (cfg : Cfg) (ln : F64 → F64) (c : Serde.Codec U32) (ords : Nat → IterOrder × IterOrder)
    (rng : Nat → U32) : (precision file : Text) → R Text :=
  runCardinalities cfg (PF.api cfg ln c) ords rng hash32

/-- `run_plus` in mode `hashes` (evaluation/src/main.rs:205). -/
def runPlus (cfg : Cfg) (ln : F64 → F64) (c : Serde.Codec U64) (ords : Nat → IterOrder × IterOrder) :
    (precision file : Text) → R Text :=
  runHashes cfg (Plus.api cfg ln c) ords 64 (BitVec.ofNat 64) hash64

/-- `run_plus` in mode `cardinalities` (evaluation/src/main.rs:205). -/
def runPlusAt (cfg : Cfg) (ln : F64 → F64) (c : Serde.Codec U64) (ords : Nat → IterOrder × IterOrder)
    (rng : Nat → U64) : (precision file : Text) → R Text :=
  runCardinalities cfg (Plus.api cfg ln c) ords rng hash64

end HLL.Evl
