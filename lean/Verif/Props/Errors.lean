import Verif.Model.Errors
import Verif.Props.HistoryPlus
import Verif.Props.HistoryPF

/-!
# C71: errors and their texts
-/

namespace HLL
open Spec

variable {I : Type} {cfg : Cfg} {ln : F64 → F64} {c : Serde.Codec I}
  {ords : Nat → IterOrder × IterOrder} {pre : List (Op I)} {op : Op I} {e : HyperLogLogError}

/-- When a call of a program reports the error `e`, and what is printed then. -/
def Reported (maxP : Nat) (st : List (Abs I)) (op : Op I) (e : HyperLogLogError) : Prop :=
  (∃ p b, op = .new p b ∧ (p < 4 ∨ maxP < p) ∧ String.ofList e.toText = "precision is out of bounds") ∨
  ∃ i j s t, op = .merge i j ∧ st[i]? = some s ∧ st[j]? = some t ∧ s.p ≠ t.p ∧
    String.ofList e.toText = "precisions must be equal"

theorem reported_iff {maxP : Nat} {F : Nat → Finset Nat → F64} {st : List (Abs I)} :
    observe maxP F st op = .result (.error e) ↔ Reported maxP st op e := by
  have h1 : String.ofList HyperLogLogError.InvalidPrecision.toText = "precision is out of bounds" := rfl
  have h2 : String.ofList HyperLogLogError.IncompatiblePrecision.toText = "precisions must be equal" := rfl
  unfold Reported
  cases op with
  | new p b =>
    simp only [observe]
    split
    · rename_i h
      simp; omega
    · rename_i h
      cases e
      · simp [h1]; omega
      · simp [h2]
  | merge i j =>
    simp only [observe]
    cases hi : st[i]? with
    | none => simp [hi]
    | some s =>
      cases hj : st[j]? with
      | none => simp [hj]
      | some t =>
        simp only
        split
        · simp [hi, hj]; intro h; simp_all
        · cases e
          · simp [h1, hi, hj]
          · simp [h2, hi, hj]; assumption
  | clone i => simp only [observe]; split <;> simp
  | insert k i v => simp only [observe]; split <;> simp
  | count i => simp only [observe]; split <;> simp
  | reload i => simp only [observe]; split <;> simp

/-- **C71** for `HyperLogLogPlus`: after any program, a call reports an error exactly if it is `new` with a
precision outside `4..=18`, whose text is "precision is out of bounds", or `merge` of sketches of
different precisions, whose text is "precisions must be equal". -/
theorem C71_plus_errors (h : Supported cfg c (pre ++ [op])) :
    later (Plus.api cfg ln c) ords pre [op] = .ok [.result (.error e)] ↔
      Reported 18 (contents 64 18 pre) op e := by
  rw [(Plus.implements cfg ln c).later_ok ords h, ← reported_iff (F := plusCount ln (Plus.biasOf cfg.search))]
  simp [expectedFrom]

/-- **C71** for `HyperLogLogPF`, whose largest precision is 16. -/
theorem C71_pf_errors (h : Supported cfg c (pre ++ [op])) :
    later (PF.api cfg ln c) ords pre [op] = .ok [.result (.error e)] ↔
      Reported 16 (contents 32 16 pre) op e := by
  rw [(PF.implements cfg ln c).later_ok ords h, ← reported_iff (F := pfCount ln)]
  simp [expectedFrom]

/-- The texts of the errors. -/
def errorText : HyperLogLogError → List Char
  | .InvalidPrecision => "precision is out of bounds".toList
  | .IncompatiblePrecision => "precisions must be equal".toList

/-- **C71, texts.** The options of a format string are honoured: an error takes as many characters as its
text, cut to the precision, or the width if this is more; the rest is filled with the fill character,
after the text unless the text is aligned to the right or centred. -/
theorem C71_display (e : HyperLogLogError) (f : FormatSpec) :
    (e.display f).length =
      max (f.width.getD 0) (min (f.precision.getD (errorText e).length) (errorText e).length) ∧
    ∃ a b : Nat, e.display f = List.replicate a f.fill ++
      (errorText e).take (f.precision.getD (errorText e).length) ++ List.replicate b f.fill ∧
      (match f.align with
        | none | some .left => a = 0
        | some .right => b = 0
        | some .center => b = a ∨ b = a + 1) := by
  have key : ∀ s : List Char, (f.pad s).length = max (f.width.getD 0) (min (f.precision.getD s.length) s.length) ∧
      ∃ a b : Nat, f.pad s = List.replicate a f.fill ++ s.take (f.precision.getD s.length) ++
        List.replicate b f.fill ∧
      (match f.align with
        | none | some .left => a = 0
        | some .right => b = 0
        | some .center => b = a ∨ b = a + 1) := by
    intro s
    have hs : f.cut s = s.take (f.precision.getD s.length) := by
      unfold FormatSpec.cut
      cases f.precision <;> simp
    have hl : (f.cut s).length = min (f.precision.getD s.length) s.length := by rw [hs, List.length_take]
    unfold FormatSpec.pad
    rw [← hl, ← hs]
    cases f.width with
    | none => exact ⟨by simp, 0, 0, by simp, by split <;> simp⟩
    | some w =>
      refine ⟨?_, _, _, rfl, ?_⟩
      · simp only [List.length_append, List.length_replicate, Option.getD_some]
        have : f.before (w - (f.cut s).length) ≤ w - (f.cut s).length := by
          unfold FormatSpec.before
          split <;> omega
        omega
      · simp only [FormatSpec.before]
        split <;> simp_all <;> omega
  cases e
  · exact key _
  · exact key _

/-- **C71, texts.** The two errors can be told apart by their texts, printed in either way. -/
theorem C71_distinct {e e' : HyperLogLogError} :
    (e.toText = e'.toText ↔ e = e') ∧ ∀ f, (e.debug f = e'.debug f ↔ e = e') := by
  refine ⟨?_, fun f => ?_⟩
  · cases e <;> cases e' <;> decide +kernel
  · cases e <;> cases e' <;> unfold HyperLogLogError.debug <;> decide +kernel

/-- `format!("{:*^30.9}", HyperLogLogError::InvalidPrecision)`. -/
example : String.ofList (HyperLogLogError.InvalidPrecision.display ⟨'*', some .center, some 30, some 9⟩) =
    "**********precision***********" := by decide +kernel

/-- Programs that report errors. -/
example (b : Nat → U64) (ords : Nat → IterOrder × IterOrder) (ln : F64 → F64) (c : Serde.Codec Nat) :
    later (Plus.api Cfg.debug64 ln c) ords [.new 4 b, .new 5 b] [.merge 0 1] =
      .ok [.result (.error .IncompatiblePrecision)] ∧
    later (PF.api Cfg.debug64 ln c) ords [.new 4 b] [.new 17 b] = .ok [.result (.error .InvalidPrecision)] := by
  refine ⟨(C71_plus_errors (supported64 rfl _ (by simp))).2 (.inr ⟨0, 1, _, _, rfl, rfl, rfl, ?_, rfl⟩),
    (C71_pf_errors (supported64 rfl _ (by simp))).2 (.inl ⟨17, b, rfl, .inr (by norm_num), rfl⟩)⟩
  simp

end HLL
