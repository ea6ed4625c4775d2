import Verif.Model.Evaluation
import Mathlib.Data.Nat.Digits.Defs

/-! # Text files with one number per line, described without the reader -/

namespace HLL.Spec

/-- The text `t` is a number `n` of at most `w` bits in decimal: one or more digits, possibly after a plus sign, and
possibly with zeros in front. -/
def Numeral (w : Nat) (t : List Char) (n : Nat) : Prop :=
  ∃ ds : List Nat, ds ≠ [] ∧ (∀ d ∈ ds, d < 10) ∧
    (t = ds.map Nat.digitChar ∨ t = '+' :: ds.map Nat.digitChar) ∧ n = Nat.ofDigits 10 ds.reverse ∧ n < 2 ^ w

/-- The text has the numbers in its lines, which end with a line feed, possibly after a carriage return.  At the end of
the text the line feed may be missing. -/
inductive Numbers (w : Nat) : List Char → List Nat → Prop where
  | nil : Numbers w [] []
  | last {t n} : Numeral w t n → Numbers w t [n]
  | line {t n x ns} : Numeral w t n → Numbers w x ns → Numbers w (t ++ '\n' :: x) (n :: ns)
  | crlf {t n x ns} : Numeral w t n → Numbers w x ns → Numbers w (t ++ '\r' :: '\n' :: x) (n :: ns)

/-- `b` is the last part of the path `f`, an ordinary name. -/
def LastPart (f b : List Char) : Prop :=
  (f = b ∨ ∃ d, f = d ++ '/' :: b) ∧ '/' ∉ b ∧ b ≠ [] ∧ b ≠ ".".toList ∧ b ≠ "..".toList

end HLL.Spec
