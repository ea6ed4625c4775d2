import Verif.Model.Plus
import Verif.Model.PF

/-!
# Model of the derived `Serialize`/`Deserialize` implementations

The derives are on `HyperLogLogPlus` (src/hyperloglogplus.rs:56), `HyperLogLogPF`
(src/hyperloglog.rs:44), `DifIntVec` and `VarIntVec` (src/encoding.rs:4, 12) and the two register
structs (src/common.rs:10).  The data format (e.g. serde_json) is abstracted to a tree of values.
-/

namespace HLL

/-- What a `Serializer` receives: serde's data model, restricted to the shapes these types use.
`opaque` is whatever the builder serialises to. -/
inductive Value where
  | num (n : Nat)
  | unit
  | none
  | some (v : Value)
  | seq (l : List Value)
  | map (l : List (String × Value))
  | opaque (n : Nat)

namespace Serde

/-- The builder's own `Serialize`/`Deserialize`, which are outside the crate. -/
structure Codec (I : Type) where
  ser : (I → U64) → Value
  de : Value → Option (I → U64)

/-- The builder `b` round-trips. -/
def Codec.RoundTrips {I : Type} (c : Codec I) (b : I → U64) : Prop := c.de (c.ser b) = some b

/-! ## Serialisation -/

/-- `#[derive(Serialize)] struct VarIntVec(Vec<u8>)` (src/encoding.rs:4-5): a newtype, written as its
content. -/
def serVarInt (v : VarIntVec) : Value := .seq (v.map fun b => .num b.toNat)

/-- `#[derive(Serialize)] struct DifIntVec` (src/encoding.rs:12-20). -/
def serDifInt (d : DifIntVec) : Value :=
  .map [("count", .num d.count), ("last", .num d.last.toNat), ("buf", serVarInt d.buf)]

/-- `#[derive(Serialize)]` of the register structs (src/common.rs:10-18). -/
def serRegisters (r : Registers) : Value :=
  .map [("buf", .seq (r.buf.map fun w => .num w.toNat)), ("count", .num r.count),
        ("zeros", .num r.zeros)]

/-- `Serialize for Option<T>` (used by src/hyperloglogplus.rs:67). -/
def serOption {α : Type} (f : α → Value) : Option α → Value
  | .none => .none
  | .some a => .some (f a)

/-- `Serialize` of `HyperLogLogPlus` (src/hyperloglogplus.rs:56-69); the set is written in its iteration order. -/
def serPlus {I : Type} (c : Codec I) (ord : IterOrder) (s : Plus I) : Value :=
  .map [("builder", c.ser s.builder), ("precision", .num s.precision),
        ("counts", .seq [.num s.counts.1, .num s.counts.2.1, .num s.counts.2.2]),
        ("tmpset", .seq ((ord.apply s.tmpset).map fun x => .num x.toNat)),
        ("sparse", serDifInt s.sparse), ("registers", serOption serRegisters s.registers),
        ("phantom", .unit)]

/-- `Serialize` of `HyperLogLogPF` (src/hyperloglog.rs:44-55). -/
def serPF {I : Type} (c : Codec I) (s : PF I) : Value :=
  .map [("builder", c.ser s.builder), ("count", .num s.count), ("precision", .num s.precision),
        ("registers", serRegisters s.registers), ("phantom", .unit)]

/-! ## Deserialisation: `none` is a deserialisation error -/

/-- An unsigned integer of `w` bits: out-of-range numbers are rejected. -/
def deNat (w : Nat) : Value → Option Nat
  | .num n => if n < 2 ^ w then some n else none
  | _ => none

/-- `u8`, `u32`. -/
def deBits (w : Nat) (v : Value) : Option (BitVec w) := (deNat w v).map (BitVec.ofNat w)

/-- `Vec<T>`, or the elements of a `HashSet<T>`. -/
def deSeq {α : Type} (f : Value → Option α) : Value → Option (List α)
  | .seq l => l.mapM f
  | _ => none

/-- The fields of a derived struct with the given names: a map (unknown keys are ignored, repeated
and missing fields are errors) or a sequence of exactly the fields. -/
def fields (names : List String) : Value → Option (List (Option Value))
  | .map l => names.mapM fun k =>
      match l.filter (fun e => e.1 == k) with
      | [] => some none
      | [(_, v)] => some (some v)
      | _ => none
  | .seq l => if l.length = names.length then some (l.map some) else none
  | _ => none

/-- A field without default: missing is an error. -/
def required (v : Option Value) : Option Value := v

/-- `#[derive(Deserialize)]` of `DifIntVec` (src/encoding.rs:12-20). Nothing relates the fields. -/
def deDifInt (cfg : Cfg) (v : Value) : Option DifIntVec := do
  match ← fields ["count", "last", "buf"] v with
  | [c, l, b] => do
    let count ← deNat cfg.usizeBits (← required c)
    let last ← deBits 32 (← required l)
    let buf ← deSeq (deBits 8) (← required b)
    pure ⟨count, last, buf⟩
  | _ => none

/-- `#[derive(Deserialize)]` of the register structs (src/common.rs:10-18). -/
def deRegisters (cfg : Cfg) (v : Value) : Option Registers := do
  match ← fields ["buf", "count", "zeros"] v with
  | [b, c, z] => do
    let buf ← deSeq (deBits 32) (← required b)
    let count ← deNat cfg.usizeBits (← required c)
    let zeros ← deNat cfg.usizeBits (← required z)
    pure ⟨buf, count, zeros⟩
  | _ => none

/-- `Option<T>`: a missing field is `None`. -/
def deOption {α : Type} (f : Value → Option α) : Option Value → Option (Option α)
  | .none => some none
  | .some .none => some none
  | .some (.some v) => (f v).map some
  | .some _ => none

/-- `PhantomData<H>`. -/
def deUnit : Value → Option Unit
  | .unit => some ()
  | _ => none

/-- `(usize, usize, usize)` (src/hyperloglogplus.rs:64). -/
def deTriple (w : Nat) : Value → Option (Nat × Nat × Nat)
  | .seq [a, b, c] => do pure (← deNat w a, ← deNat w b, ← deNat w c)
  | _ => none

/-- `Deserialize` of `HyperLogLogPlus` (src/hyperloglogplus.rs:56-69); the set is rebuilt by inserting the elements. -/
def dePlus {I : Type} (cfg : Cfg) (c : Codec I) (v : Value) : Option (Plus I) := do
  match ← fields ["builder", "precision", "counts", "tmpset", "sparse", "registers", "phantom"] v with
  | [b, p, cs, t, s, r, ph] => do
    let builder ← c.de (← required b)
    let precision ← deNat 8 (← required p)
    let counts ← deTriple cfg.usizeBits (← required cs)
    let tmp ← deSeq (deBits 32) (← required t)
    let sparse ← deDifInt cfg (← required s)
    let registers ← deOption (deRegisters cfg) r
    let _ ← deUnit (← required ph)
    pure ⟨builder, precision, counts, tmp.foldl hashSetInsert [], sparse, registers⟩
  | _ => none

/-- `Deserialize` of `HyperLogLogPF` (src/hyperloglog.rs:44-55). -/
def dePF {I : Type} (cfg : Cfg) (c : Codec I) (v : Value) : Option (PF I) := do
  match ← fields ["builder", "count", "precision", "registers", "phantom"] v with
  | [b, n, p, r, ph] => do
    let builder ← c.de (← required b)
    let count ← deNat cfg.usizeBits (← required n)
    let precision ← deNat 8 (← required p)
    let registers ← deRegisters cfg (← required r)
    let _ ← deUnit (← required ph)
    pure ⟨builder, count, precision, registers⟩
  | _ => none

end Serde
end HLL
