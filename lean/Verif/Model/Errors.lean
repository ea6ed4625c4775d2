import Verif.Model.Common

/-!
# Texts of errors

`impl fmt::Display for HyperLogLogError` (src/lib.rs:67-78) and the derived `Debug` (src/lib.rs:61).
Texts are lists of characters.
-/

namespace HLL

/-- `fmt::Alignment`. -/
inductive Alignment where
  | left | right | center
  deriving DecidableEq

/-- The options of a format string that `Formatter::pad` looks at: `{:fill align width .precision}`. -/
structure FormatSpec where
  fill : Char := ' '
  align : Option Alignment := none
  width : Option Nat := none
  precision : Option Nat := none

/-- Cutting a text to `precision` characters (first part of `Formatter::pad`). -/
def FormatSpec.cut (f : FormatSpec) (s : List Char) : List Char :=
  match f.precision with
  | some n => s.take n
  | none => s

/-- Characters to be put in front of a text, if `missing` characters are to be filled. -/
def FormatSpec.before (f : FormatSpec) (missing : Nat) : Nat :=
  match f.align.getD .left with
  | .left => 0
  | .right => missing
  | .center => missing / 2

/-- `Formatter::pad` of the standard library, called by `str: Display`: the text is cut to `precision`
characters and then filled up to `width` characters, at the end unless an alignment is given. -/
def FormatSpec.pad (f : FormatSpec) (s : List Char) : List Char :=
  match f.width with
  | none => f.cut s
  | some w =>
    let missing := w - (f.cut s).length
    List.replicate (f.before missing) f.fill ++ f.cut s ++
      List.replicate (missing - f.before missing) f.fill

namespace HyperLogLogError

/-- `fmt` (src/lib.rs:68-77): `"…".fmt(f)`. -/
def display (e : HyperLogLogError) (f : FormatSpec) : List Char :=
  match e with
  | .InvalidPrecision => f.pad "precision is out of bounds".toList
  | .IncompatiblePrecision => f.pad "precisions must be equal".toList

/-- `to_string()`, that is `format!("{}", e)`. -/
def toText (e : HyperLogLogError) : List Char := e.display {}

/-- `{:?}` (derived at src/lib.rs:61; the derive calls `f.write_str`, which ignores width and precision). -/
def debug (e : HyperLogLogError) (_ : FormatSpec) : List Char :=
  match e with
  | .InvalidPrecision => "InvalidPrecision".toList
  | .IncompatiblePrecision => "IncompatiblePrecision".toList

end HyperLogLogError
end HLL
