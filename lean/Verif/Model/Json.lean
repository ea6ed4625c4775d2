import Verif.Model.History

/-!
# Sketches as JSON text

The crate's own use of serialisation is with serde_json (tests at src/hyperloglogplus.rs:1151-1169 and
src/hyperloglog.rs:379-405).  This is a model of what `serde_json::to_string`, `to_string_pretty` and `from_str` do
with the values of `Model/Serde.lean`.

Simplified: strings occur only as keys of maps and are written and read without escapes; booleans, strings as values,
negative numbers, fractions and exponents, which serde_json would read into a builder or skip in an unknown field, are
rejected when reading.  Nothing the crate writes contains them.
-/

namespace HLL
namespace Json

/-- `null`. -/
def nullText : List Char := ['n', 'u', 'l', 'l']

/-! ## Writing -/

/-- The white space a formatter writes: `line d` before an element, or the end, of an array or object at depth `d`, and
`colon` after the colon of an entry. -/
structure Format where
  line : Nat → List Char
  colon : List Char

/-- `CompactFormatter`, used by `serde_json::to_string`. -/
def compact : Format := ⟨fun _ => [], []⟩

/-- `PrettyFormatter`, used by `serde_json::to_string_pretty`: each element on a line of its own, indented by two spaces
per level. -/
def pretty : Format := ⟨fun d => '\n' :: List.replicate (2 * d) ' ', [' ']⟩

mutual
/-- `serde_json::Serializer` on a value at depth `d`: numbers in decimal, units and `None` as `null`, `Some(v)` like `v`.
(What a builder serialises to must not be `opaque`.) -/
def text (f : Format) (d : Nat) : Value → List Char
  | .num n => Nat.toDigits 10 n
  | .unit => nullText
  | .none => nullText
  | .opaque _ => nullText
  | .some v => text f d v
  | .seq [] => ['[', ']']
  | .seq (v :: l) => '[' :: (f.line (d + 1) ++ text f (d + 1) v ++ textSeq f (d + 1) l ++ f.line d ++ [']'])
  | .map [] => ['{', '}']
  | .map ((k, v) :: l) => '{' :: (f.line (d + 1) ++ '"' :: k.toList ++ '"' :: ':' :: f.colon ++ text f (d + 1) v ++
      textMap f (d + 1) l ++ f.line d ++ ['}'])
/-- The elements after the first one. -/
def textSeq (f : Format) (d : Nat) : List Value → List Char
  | [] => []
  | v :: l => ',' :: f.line d ++ text f d v ++ textSeq f d l
/-- The entries after the first one. -/
def textMap (f : Format) (d : Nat) : List (String × Value) → List Char
  | [] => []
  | (k, v) :: l => ',' :: f.line d ++ '"' :: k.toList ++ '"' :: ':' :: f.colon ++ text f d v ++ textMap f d l
end

/-! ## Reading -/

/-- White space in JSON. -/
def isSpace (c : Char) : Bool := c == ' ' || c == '\n' || c == '\t' || c == '\r'

/-- An array or object whose end has not been read, with what has been read, in reverse order. -/
inductive Open where
  | seq (l : List Value)
  /-- `key` is the key whose value comes next -/
  | map (l : List (String × Value)) (key : String)

/-- Where a reader is. -/
inductive Mode where
  /-- before a value -/
  | value
  /-- after `[` -/
  | first
  /-- after an element or entry -/
  | after
  /-- after `{` -/
  | key0
  /-- after the comma in an object -/
  | key1
  /-- in a key; its characters so far, in reverse order -/
  | key (l : List Char)
  /-- after a key -/
  | colon
  /-- in a number -/
  | num (n : Nat)
  /-- in `null`: what must follow -/
  | null (l : List Char)

inductive State where
  /-- the open arrays and objects, the innermost first -/
  | inside (o : List Open) (m : Mode)
  /-- the whole value has been read -/
  | done (v : Value)

/-- A value has been read completely. -/
def complete (v : Value) : List Open → State
  | [] => .done v
  | .seq l :: o => .inside (.seq (v :: l) :: o) .after
  | .map l k :: o => .inside (.map ((k, v) :: l) k :: o) .after

/-- An array or object begins; serde_json stops at 128 levels. -/
def enter (x : Open) (m : Mode) (o : List Open) : Option State :=
  if o.length < 127 then some (.inside (x :: o) m) else none

/-- The first character of a value. -/
def stepValue (o : List Open) (c : Char) : Option State :=
  if c == '[' then enter (.seq []) .first o
  else if c == '{' then enter (.map [] "") .key0 o
  else if c == 'n' then some (.inside o (.null ['u', 'l', 'l']))
  else if c.isDigit then some (.inside o (.num (c.toNat - 48)))
  else none

/-- A character after a value; not called in a number. -/
def stepAfter (c : Char) : State → Option State
  | .done v => if isSpace c then some (.done v) else none
  | .inside (.seq l :: o) .after =>
    if isSpace c then some (.inside (.seq l :: o) .after)
    else if c == ',' then some (.inside (.seq l :: o) .value)
    else if c == ']' then some (complete (.seq l.reverse) o)
    else none
  | .inside (.map l k :: o) .after =>
    if isSpace c then some (.inside (.map l k :: o) .after)
    else if c == ',' then some (.inside (.map l k :: o) .key1)
    else if c == '}' then some (complete (.map l.reverse) o)
    else none
  | _ => none

/-- One character. -/
def step (s : State) (c : Char) : Option State :=
  match s with
  | .done v => stepAfter c (.done v)
  | .inside o .after => stepAfter c (.inside o .after)
  | .inside o .value => if isSpace c then some s else stepValue o c
  | .inside o .first =>
    if isSpace c then some s
    else if c == ']' then match o with
      | _ :: o => some (complete (.seq []) o)
      | [] => none
    else stepValue o c
  | .inside o .key0 =>
    if isSpace c then some s
    else if c == '"' then some (.inside o (.key []))
    else if c == '}' then match o with
      | _ :: o => some (complete (.map []) o)
      | [] => none
    else none
  | .inside o .key1 =>
    if isSpace c then some s
    else if c == '"' then some (.inside o (.key []))
    else none
  | .inside o (.key l) =>
    if c == '"' then match o with
      | .map es _ :: o => some (.inside (.map es (String.ofList l.reverse) :: o) .colon)
      | _ => none
    else if c == '\\' || c.toNat < 32 then none
    else some (.inside o (.key (c :: l)))
  | .inside o .colon =>
    if isSpace c then some s
    else if c == ':' then some (.inside o .value)
    else none
  | .inside o (.num n) =>
    if c.isDigit then
      -- no leading zeros
      if n = 0 then none else some (.inside o (.num (10 * n + (c.toNat - 48))))
    else stepAfter c (complete (.num n) o)
  | .inside o (.null l) =>
    match l with
    | [] => none
    | [d] => if c == d then some (complete .unit o) else none
    | d :: l => if c == d then some (.inside o (.null l)) else none

/-- `serde_json::from_str`, up to the conversion to a Rust type: one value, possibly between white space.  The end of the
text acts like white space. -/
def parse (t : List Char) : Option Value :=
  match (t ++ ['\n']).foldlM step (.inside [] .value) with
  | some (.done v) => some v
  | _ => none

/-! ## Sketches -/

/-- Reading an `Option<T>` (src/hyperloglogplus.rs:67): `null` is `None`, anything else is read as `T`. -/
def option : Value → Value
  | .unit => .none
  | v => .some v

/-- The JSON value of a `HyperLogLogPlus` as its `Deserialize` sees it: the field `registers`, the sixth one, is read as an
`Option` (src/hyperloglogplus.rs:56-69). -/
def viewPlus : Value → Value
  | .map l => .map (l.map fun e => (e.1, if e.1 = "registers" then option e.2 else e.2))
  | .seq l => .seq (l.mapIdx fun n v => if n = 5 then option v else v)
  | v => v

end Json

variable {I : Type}

/-- `serde_json::to_string(&s)` (or `to_string_pretty`) of a `HyperLogLogPlus`. -/
def Plus.toText (f : Json.Format) (c : Serde.Codec I) (ord : IterOrder) (s : Plus I) : List Char :=
  Json.text f 0 (Serde.serPlus c ord s)

/-- `serde_json::from_str` to a `HyperLogLogPlus`. -/
def Plus.ofText (cfg : Cfg) (c : Serde.Codec I) (t : List Char) : Option (Plus I) :=
  (Json.parse t).bind fun v => Serde.dePlus cfg c (Json.viewPlus v)

/-- `serde_json::to_string(&s)` (or `to_string_pretty`) of a `HyperLogLogPF`. -/
def PF.toText (f : Json.Format) (c : Serde.Codec I) (s : PF I) : List Char :=
  Json.text f 0 (Serde.serPF c s)

/-- `serde_json::from_str` to a `HyperLogLogPF`. -/
def PF.ofText (cfg : Cfg) (c : Serde.Codec I) (t : List Char) : Option (PF I) :=
  (Json.parse t).bind (Serde.dePF cfg c)

/-- The interface of `HyperLogLogPlus`, with sketches reloaded from JSON text (as in src/hyperloglogplus.rs:1151-1154). -/
def Plus.jsonApi (f : Json.Format) (cfg : Cfg) (ln : F64 → F64) (c : Serde.Codec I) : Api (Plus I) I :=
  { Plus.api cfg ln c with reload := fun ord s => pure (Plus.ofText cfg c (Plus.toText f c ord s)) }

/-- The interface of `HyperLogLogPF`, with sketches reloaded from JSON text (as in src/hyperloglog.rs:379-382). -/
def PF.jsonApi (f : Json.Format) (cfg : Cfg) (ln : F64 → F64) (c : Serde.Codec I) : Api (PF I) I :=
  { PF.api cfg ln c with reload := fun _ s => pure (PF.ofText cfg c (PF.toText f c s)) }

end HLL
