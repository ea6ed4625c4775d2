import Verif.SpecCommand
import Verif.Model.Command

/-! # What `clap` accepts -/

namespace HLL.Evl
open Spec

theorem isValue_iff {t : Text} : isValue t = true ↔ Plain t := by
  simp [isValue, Plain, or_comm]

theorem isValue_option (n : String) : isValue ("--" ++ n).toList = false := by
  simp [isValue]

theorem option_inj {a b : String} (h : ("--" ++ a).toList = ("--" ++ b).toList) : a = b := by
  rw [String.toList_append, String.toList_append, List.append_cancel_left_eq] at h
  exact String.toList_inj.1 h

theorem valuesOf_none {m : Matches} {n : String} : valuesOf m n = none ↔ (m.filter fun e => e.1 = n) = [] := by
  unfold valuesOf; generalize (m.filter fun e => e.1 = n) = l; cases l <;> simp

theorem valuesOf_eq {m : Matches} {n : String} (h : valuesOf m n ≠ none) :
    valuesOf m n = some ((m.filter fun e => e.1 = n).flatMap Prod.snd) := by
  unfold valuesOf at *; split <;> simp_all

theorem _root_.HLL.Spec.Once.valuesOf {m : Options} {n : String} {v : Text} (h : Once m n v) :
    valuesOf m n = some [v] := by
  rw [Evl.valuesOf, h]; rfl

theorem _root_.HLL.Spec.Once.valueOf {m : Options} {n : String} {v : Text} (h : Once m n v) :
    valueOf m n = some v := by
  rw [Evl.valueOf, h.valuesOf]; rfl

/-- The values of one occurrence of an option. -/
def Takes (o : Opt) (vs : List Text) : Prop :=
  vs ≠ [] ∧ (o.multiple = true ∨ vs.length ≤ 1) ∧ ∀ v ∈ vs, isValue v = true ∧ o.accepts v = true

/-- What can follow the options `m`. -/
def Fine (opts : List Opt) : (m rest : Matches) → Prop
  | _, [] => True
  | m, e :: rest => (∃ o ∈ opts, o.name = e.1 ∧ (valuesOf m e.1 = none ∨ o.multiple = true) ∧ Takes o e.2) ∧
    Fine opts (m ++ [e]) rest

/-- The options of a command have different names. -/
def Distinct (opts : List Opt) : Prop := ∀ o ∈ opts, ∀ o' ∈ opts, o.name = o'.name → o = o'

variable {opts : List Opt}

theorem find_option (hu : Distinct opts) {t : Text} {o : Opt} :
    (opts.find? fun o => ("--" ++ o.name).toList = t) = some o ↔ o ∈ opts ∧ ("--" ++ o.name).toList = t := by
  constructor
  · intro h
    exact ⟨List.mem_of_find?_eq_some h, by simpa using List.find?_some h⟩
  · rintro ⟨h, rfl⟩
    cases hf : opts.find? fun o' => ("--" ++ o'.name).toList = ("--" ++ o.name).toList with
    | none => rw [List.find?_eq_none] at hf; exact absurd (decide_eq_true rfl) (hf o h)
    | some o' =>
      have h2 := by simpa only [decide_eq_true_eq] using List.find?_some hf
      rw [hu o' (List.mem_of_find?_eq_some hf) o h (option_inj h2)]

/-- Between options. -/
def Tail (opts : List Opt) (m : Matches) (ts : List Text) (m' : Matches) : Prop :=
  ∃ rest, ts = words rest ∧ m' = m ++ rest ∧ Fine opts m rest

/-- In the values of an option. -/
def Within (opts : List Opt) (o : Opt) (vs : List Text) (m : Matches) (ts : List Text) (m' : Matches) : Prop :=
  ∃ ws rest, ts = ws ++ words rest ∧ m' = m ++ (o.name, vs ++ ws) :: rest ∧ vs ++ ws ≠ [] ∧
    (ws = [] ∨ o.multiple = true ∨ vs = [] ∧ ws.length ≤ 1) ∧ (∀ w ∈ ws, isValue w = true ∧ o.accepts w = true) ∧
    Fine opts (m ++ [(o.name, vs ++ ws)]) rest

theorem tail_option (hu : Distinct opts) {m m' : Matches} {t : Text} {ts : List Text} :
    Tail opts m (t :: ts) m' ↔ ∃ o ∈ opts, ("--" ++ o.name).toList = t ∧
      (valuesOf m o.name = none ∨ o.multiple = true) ∧ Within opts o [] m ts m' := by
  constructor
  · rintro ⟨rest, h1, h2, h3⟩
    cases rest with
    | nil => simp [words] at h1
    | cons e rest =>
      obtain ⟨⟨o, ho, hn, hv, t1, t2, t3⟩, h4⟩ := h3
      have e1 : words (e :: rest) = ("--" ++ e.1).toList :: (e.2 ++ words rest) := by simp [words]
      rw [e1, List.cons.injEq] at h1
      have e2 : e = (o.name, [] ++ e.2) := by rw [hn]; rfl
      refine ⟨o, ho, by rw [hn, h1.1], by rwa [hn], e.2, rest, h1.2, by rw [h2, ← e2], by simpa using t1, ?_, t3, by
        rwa [← e2]⟩
      rcases t2 with t2 | t2
      · exact .inr (.inl t2)
      · exact .inr (.inr ⟨rfl, t2⟩)
  · rintro ⟨o, ho, rfl, hv, ws, rest, rfl, rfl, h3, h4, h5, h6⟩
    rw [List.nil_append] at h3 h6
    refine ⟨(o.name, ws) :: rest, by simp [words], by simp, ⟨o, ho, rfl, hv, h3, ?_, h5⟩, h6⟩
    rcases h4 with h4 | h4 | h4
    · exact absurd h4 h3
    · exact .inl h4
    · exact .inr h4.2

theorem within_end {o : Opt} {vs : List Text} {m m' : Matches} {ts : List Text}
    (ht : ∀ t, ts.head? = some t → isValue t = false) :
    Within opts o vs m ts m' ↔ vs ≠ [] ∧ Tail opts (m ++ [(o.name, vs)]) ts m' := by
  constructor
  · rintro ⟨ws, rest, rfl, rfl, h3, h4, h5, h6⟩
    obtain rfl : ws = [] := by
      cases ws with
      | nil => rfl
      | cons w ws =>
        have := ht w (by simp)
        rw [(h5 w (by simp)).1] at this
        cases this
    rw [List.append_nil] at h3 h6
    exact ⟨h3, rest, by simp, by simp, h6⟩
  · rintro ⟨h, rest, rfl, rfl, h6⟩
    exact ⟨[], rest, by simp, by simp, by simpa using h, .inl rfl, by simp, by simpa using h6⟩

theorem within_value {o : Opt} {vs : List Text} {m m' : Matches} {t : Text} {ts : List Text} (ht : isValue t = true) :
    Within opts o vs m (t :: ts) m' ↔ (vs = [] ∨ o.multiple = true) ∧ o.accepts t = true ∧
      Within opts o (vs ++ [t]) m ts m' := by
  constructor
  · rintro ⟨ws, rest, h1, rfl, h3, h4, h5, h6⟩
    cases ws with
    | nil =>
      cases rest with
      | nil => simp [words] at h1
      | cons e rest =>
        have e1 : words (e :: rest) = ("--" ++ e.1).toList :: (e.2 ++ words rest) := by simp [words]
        rw [List.nil_append, e1, List.cons.injEq] at h1
        rw [h1.1, isValue_option] at ht
        cases ht
    | cons w ws =>
      rw [List.cons_append, List.cons.injEq] at h1
      obtain ⟨rfl, rfl⟩ := h1
      have e1 : vs ++ t :: ws = vs ++ [t] ++ ws := by simp
      refine ⟨?_, (h5 t (by simp)).2, ws, rest, rfl, by rw [e1], by simp, ?_, fun w hw => h5 w (by simp [hw]),
        by rwa [← e1]⟩
      · rcases h4 with h4 | h4 | h4
        · cases h4
        · exact .inr h4
        · exact .inl h4.1
      · rcases h4 with h4 | h4 | h4
        · cases h4
        · exact .inr (.inl h4)
        · exact .inl (by simpa using h4.2)
  · rintro ⟨h0, hacc, ws, rest, rfl, rfl, h3, h4, h5, h6⟩
    have e1 : vs ++ t :: ws = vs ++ [t] ++ ws := by simp
    refine ⟨t :: ws, rest, rfl, by rw [e1], by simp, ?_, ?_, by rwa [e1]⟩
    · rcases h0 with h0 | h0
      · rcases h4 with h4 | h4 | h4
        · exact .inr (.inr ⟨h0, by simp [h4]⟩)
        · exact .inr (.inl h4)
        · simp at h4
      · exact .inr (.inl h0)
    · intro w hw
      rcases List.mem_cons.1 hw with rfl | hw
      · exact ⟨ht, hacc⟩
      · exact h5 w hw

theorem parse_iff_words (hu : Distinct opts) : ∀ (ts : List Text) (cur : Option (Opt × List Text)) (m m' : Matches),
    parseArgs opts cur m ts = some m' ↔
      match cur with
      | none => Tail opts m ts m'
      | some (o, vs) => Within opts o vs m ts m' := by
  intro ts
  induction ts with
  | nil =>
    intro cur m m'
    have hT : ∀ m, Tail opts m [] m' ↔ m = m' := by
      intro m
      constructor
      · rintro ⟨rest, h1, h2, -⟩
        cases rest with
        | nil => simpa using h2.symm
        | cons e rest => simp [words] at h1
      · rintro rfl
        exact ⟨[], rfl, by simp, trivial⟩
    rcases cur with - | ⟨o, vs⟩
    · simp only [hT]
      simp [parseArgs, closeOption]
    · simp only [within_end (o := o) (vs := vs) (m := m) (m' := m') (ts := []) (opts := opts) (by simp), hT]
      cases vs <;> simp [parseArgs, closeOption]
  | cons t ts ih =>
    intro cur m m'
    by_cases ht : isValue t = true
    · rcases cur with - | ⟨o, vs⟩
      · rw [parseArgs, if_pos ht]
        simp only [reduceCtorEq, false_iff]
        rw [tail_option hu]
        rintro ⟨o, -, rfl, -⟩
        rw [isValue_option] at ht
        cases ht
      · rw [parseArgs, if_pos ht]
        simp only [within_value ht]
        split
        · rename_i h
          rw [ih]
          simp only [h.1, h.2, true_and]
        · rename_i h
          simp only [reduceCtorEq, false_iff]
          rintro ⟨h1, h2, -⟩
          exact h ⟨h1, h2⟩
    · have key : ∀ M, (match opts.find? fun o => ("--" ++ o.name).toList = t with
          | none => none
          | some o => if (valuesOf M o.name).isSome ∧ ¬ o.multiple then none else parseArgs opts (some (o, [])) M ts) =
            some m' ↔ Tail opts M (t :: ts) m' := by
        intro M
        rw [tail_option hu]
        constructor
        · intro h
          split at h
          · cases h
          · rename_i o hf
            rw [find_option hu] at hf
            split at h
            · cases h
            · rename_i hc
              rw [ih] at h
              refine ⟨o, hf.1, hf.2, ?_, h⟩
              cases hv : valuesOf M o.name with
              | none => exact .inl rfl
              | some _ => exact .inr (by simpa [hv] using hc)
        · rintro ⟨o, ho, hn, hv, hw⟩
          rw [(find_option hu).2 ⟨ho, hn⟩]
          dsimp only
          rw [if_neg (by rcases hv with hv | hv <;> simp [hv]), ih]
          exact hw
      rcases cur with - | ⟨o, vs⟩
      · rw [parseArgs, if_neg ht]
        simp only
        rw [← key m]
        cases opts.find? fun o => ("--" ++ o.name).toList = t <;> simp [closeOption]
      · rw [parseArgs, if_neg ht]
        simp only
        rw [within_end (by simpa using ht), ← key]
        cases vs with
        | nil =>
          simp only [ne_eq, not_true_eq_false, false_and, iff_false]
          split <;> simp [closeOption]
        | cons v vs => cases opts.find? fun o => ("--" ++ o.name).toList = t <;> simp [closeOption]

/-- All at once instead of one after the other. -/
theorem fine_iff (hu : Distinct opts) : ∀ (rest m : Matches), Fine opts m rest ↔
    (∀ e ∈ rest, ∃ o ∈ opts, o.name = e.1 ∧ Takes o e.2) ∧
    ∀ o ∈ opts, o.multiple = false → (rest.filter fun e => e.1 = o.name) = [] ∨
      (m.filter fun e => e.1 = o.name) = [] ∧ (rest.filter fun e => e.1 = o.name).length ≤ 1 := by
  intro rest
  induction rest with
  | nil => intro m; simp [Fine]
  | cons e rest ih =>
    intro m
    rw [Fine, ih]
    constructor
    · rintro ⟨⟨o, ho, hn, hv, ht⟩, h1, h2⟩
      refine ⟨?_, ?_⟩
      · intro e' he'
        rcases List.mem_cons.1 he' with rfl | he'
        · exact ⟨o, ho, hn, ht⟩
        · exact h1 e' he'
      · intro o' ho' hm'
        by_cases hn' : e.1 = o'.name
        · obtain rfl := hu o ho o' ho' (hn.trans hn')
          have hv := hv.resolve_right (by simp [hm'])
          rw [valuesOf_none, hn'] at hv
          rcases h2 o ho hm' with h | h
          · exact .inr ⟨hv, by simp [hn', h]⟩
          · exact absurd h.1 (by simp [hn'])
        · have := h2 o' ho' hm'
          simpa [hn'] using this
    · rintro ⟨h1, h2⟩
      obtain ⟨o, ho, hn, ht⟩ := h1 e (by simp)
      refine ⟨⟨o, ho, hn, ?_, ht⟩, fun e' he' => h1 e' (by simp [he']), ?_⟩
      · cases hm : o.multiple with
        | true => exact .inr rfl
        | false =>
          rcases h2 o ho hm with h | h
          · simp [hn] at h
          · rw [valuesOf_none, ← hn]; exact .inl h.1
      · intro o' ho' hm'
        have := h2 o' ho' hm'
        by_cases hn' : e.1 = o'.name
        · rcases this with h | h
          · simp [hn'] at h
          · left
            simpa [hn'] using h.2
        · simpa [hn'] using this

/-- The options that are accepted after a subcommand. -/
def Accepts (opts : List Opt) (m : Matches) : Prop :=
  (∀ e ∈ m, ∃ o ∈ opts, o.name = e.1 ∧ Takes o e.2) ∧
    ∀ o ∈ opts, o.multiple = false → (m.filter fun e => e.1 = o.name).length ≤ 1

theorem parse_accepts (hu : Distinct opts) {ts : List Text} {m : Matches} :
    parseArgs opts none [] ts = some m ↔ ts = words m ∧ Accepts opts m := by
  rw [parse_iff_words hu]
  simp only [Tail, List.nil_append]
  constructor
  · rintro ⟨rest, rfl, rfl, h⟩
    rw [fine_iff hu] at h
    refine ⟨rfl, h.1, fun o ho hm => ?_⟩
    rcases h.2 o ho hm with h | h
    · simp [h]
    · exact h.2
  · rintro ⟨rfl, h⟩
    refine ⟨m, rfl, rfl, (fine_iff hu _ _).2 ⟨h.1, fun o ho hm => .inr ⟨rfl, h.2 o ho hm⟩⟩⟩

theorem Accepts.once {m : Matches} (h : Accepts opts m) (hu : Distinct opts) {o : Opt} (ho : o ∈ opts)
    (hm : o.multiple = false) (hs : (valuesOf m o.name).isSome = true) : ∃ v, Once m o.name v ∧ o.accepts v = true := by
  have h1 := h.2 o ho hm
  have h2 : (m.filter fun e => e.1 = o.name) ≠ [] := fun e => by rw [valuesOf_none.2 e] at hs; cases hs
  obtain ⟨e, he⟩ : ∃ e, (m.filter fun e => e.1 = o.name) = [e] := List.length_eq_one_iff.1 (by
    have := List.length_pos_iff.2 h2; omega)
  have hmem : e ∈ m.filter fun e => e.1 = o.name := by rw [he]; simp
  rw [List.mem_filter] at hmem
  have hn : e.1 = o.name := by simpa using hmem.2
  obtain ⟨o', ho', hn', t1, t2, t3⟩ := h.1 e hmem.1
  obtain rfl := hu o' ho' o ho (hn'.trans hn)
  obtain ⟨v, hv⟩ : ∃ v, e.2 = [v] := List.length_eq_one_iff.1 (by
    have := List.length_pos_iff.2 t1
    rcases t2 with t2 | t2
    · rw [hm] at t2; cases t2
    · omega)
  refine ⟨v, ?_, (t3 v (by simp [hv])).2⟩
  rw [Once, he, ← hv, ← hn]

theorem Accepts.optional {m : Matches} (h : Accepts opts m) (hu : Distinct opts) {o : Opt} (ho : o ∈ opts)
    (hm : o.multiple = false) : ∃ v, Optional m o.name v ∧ (v ≠ none ↔ (valuesOf m o.name).isSome = true) := by
  cases hv : valuesOf m o.name with
  | none =>
    refine ⟨none, ?_, by simp⟩
    rw [valuesOf_none, List.filter_eq_nil_iff] at hv
    simpa [Optional] using hv
  | some vs =>
    obtain ⟨v, h1, -⟩ := h.once hu ho hm (by simp [hv])
    exact ⟨some v, h1, by simp⟩

theorem accepts_two {n a b : String} {v : Text} (h : ({ name := n, possible := some [a, b] } : Opt).accepts v = true) :
    v = a.toList ∨ v = b.toList := by
  simp only [Opt.accepts, List.any_cons, List.any_nil, Bool.or_false, Bool.or_eq_true, decide_eq_true_eq] at h
  exact h.imp Eq.symm Eq.symm

theorem once_mem {m : Matches} {e : String × List Text} {n : String} {v : Text} (h : Once m n v) (he : e ∈ m)
    (hn : e.1 = n) : e.2 = [v] := by
  have : e ∈ m.filter fun e => e.1 = n := List.mem_filter.2 ⟨he, by simpa using hn⟩
  rw [h, List.mem_singleton] at this
  rw [this]

theorem genOpts_distinct : Distinct genOpts := by unfold Distinct; decide +kernel

theorem runOpts_distinct : Distinct runOpts := by unfold Distinct; decide +kernel

theorem gen_iff {m : Matches} : Accepts genOpts m ∧ given m ["size", "count", "runs", "output"] = true ↔
    ∃ size count runs output, GenOptions m size count runs output := by
  constructor
  · rintro ⟨h, hg⟩
    simp only [given, List.all_cons, List.all_nil, Bool.and_true, Bool.and_eq_true] at hg
    obtain ⟨g1, g2, g3, g4⟩ := hg
    obtain ⟨v1, o1, a1⟩ := h.once genOpts_distinct (o := { name := "size", possible := some ["32", "64"] })
      (by simp [genOpts]) rfl g1
    obtain ⟨v2, o2, -⟩ := h.once genOpts_distinct (o := { name := "count" }) (by simp [genOpts]) rfl g2
    obtain ⟨v3, o3, -⟩ := h.once genOpts_distinct (o := { name := "runs" }) (by simp [genOpts]) rfl g3
    obtain ⟨v4, o4, -⟩ := h.once genOpts_distinct (o := { name := "output" }) (by simp [genOpts]) rfl g4
    refine ⟨v1, v2, v3, v4, ⟨?_, ?_, ?_, o1, o2, o3, o4⟩⟩
    · exact accepts_two a1
    · intro e he
      obtain ⟨o, ho, hn, -⟩ := h.1 e he
      rw [← hn]
      simp only [genOpts, List.mem_cons, List.not_mem_nil, or_false] at ho
      rcases ho with rfl | rfl | rfl | rfl <;> simp
    · intro e he v hv
      obtain ⟨o, ho, hn, -, -, t3⟩ := h.1 e he
      exact isValue_iff.1 (t3 v hv).1
  · rintro ⟨size, count, runs, output, hs, hk, hp, o1, o2, o3, o4⟩
    refine ⟨⟨?_, ?_⟩, ?_⟩
    · intro e he
      have key : ∀ {n v} (o : Opt), Once m n v → e.1 = n → o ∈ genOpts → o.name = n → o.accepts v = true →
          ∃ o ∈ genOpts, o.name = e.1 ∧ Takes o e.2 := by
        intro n v o ho hn h1 h2 h3
        have e2 := once_mem ho he hn
        refine ⟨o, h1, by rw [h2, hn], ?_⟩
        rw [e2]
        refine ⟨by simp, .inr (by simp), fun w hw => ?_⟩
        obtain rfl : w = v := by simpa using hw
        exact ⟨isValue_iff.2 (hp e he w (by simp [e2])), h3⟩
      have := hk e he
      simp only [List.mem_cons, List.not_mem_nil, or_false] at this
      rcases this with h | h | h | h
      · exact key { name := "size", possible := some ["32", "64"] } o1 h (by simp [genOpts]) rfl
          (by rcases hs with rfl | rfl <;> decide)
      · exact key { name := "count" } o2 h (by simp [genOpts]) rfl rfl
      · exact key { name := "runs" } o3 h (by simp [genOpts]) rfl rfl
      · exact key { name := "output" } o4 h (by simp [genOpts]) rfl rfl
    · intro o ho _
      simp only [genOpts, List.mem_cons, List.not_mem_nil, or_false] at ho
      rcases ho with rfl | rfl | rfl | rfl
      · rw [o1]; simp
      · rw [o2]; simp
      · rw [o3]; simp
      · rw [o4]; simp
    · simp [given, o1.valuesOf, o2.valuesOf, o3.valuesOf, o4.valuesOf]

theorem _root_.HLL.Spec.Optional.valuesOf {m : Options} {n : String} {v : Option Text} (h : Optional m n v) :
    valuesOf m n = v.map fun t => [t] := by
  cases v with
  | none =>
    rw [Option.map_none, valuesOf_none, List.filter_eq_nil_iff]
    simpa [Optional] using h
  | some v => exact Once.valuesOf h

theorem _root_.HLL.Spec.Optional.valueOf {m : Options} {n : String} {v : Option Text} (h : Optional m n v) :
    valueOf m n = v := by
  rw [Evl.valueOf, h.valuesOf]; cases v <;> rfl

theorem run_iff {m : Matches} : Accepts runOpts m ∧ runRequired m = true ↔
    ∃ type mode precision output inputs runs cards, RunOptions m type mode precision output inputs runs cards := by
  constructor
  · rintro ⟨h, hg⟩
    simp only [runRequired, given, List.all_cons, List.all_nil, Bool.and_true, Bool.and_eq_true] at hg
    obtain ⟨⟨⟨g1, g2, g3, g4⟩, g5⟩, g6⟩ := hg
    obtain ⟨v1, o1, a1⟩ := h.once runOpts_distinct (o := { name := "type", possible := some ["hll", "hllp"] })
      (by simp [runOpts]) rfl g1
    obtain ⟨v2, o2, a2⟩ := h.once runOpts_distinct (o := { name := "mode", possible := some ["hashes", "cardinalities"] })
      (by simp [runOpts]) rfl g2
    obtain ⟨v3, o3, -⟩ := h.once runOpts_distinct (o := { name := "precision" }) (by simp [runOpts]) rfl g3
    obtain ⟨v4, o4, -⟩ := h.once runOpts_distinct (o := { name := "output" }) (by simp [runOpts]) rfl g4
    obtain ⟨v5, o5, a5⟩ := h.optional runOpts_distinct (o := { name := "runs" }) (by simp [runOpts]) rfl
    obtain ⟨v6, o6, a6⟩ := h.optional runOpts_distinct (o := { name := "cardinalities" }) (by simp [runOpts]) rfl
    have hne : ∀ e ∈ m, e.2 ≠ [] := fun e he => by
      obtain ⟨o, -, -, t, -⟩ := h.1 e he
      exact t
    refine ⟨v1, v2, v3, v4, _, v5, v6, ⟨?_, ?_, ?_, ?_, o1, o2, o3, o4, o5, o6, hne, rfl⟩⟩
    · exact accepts_two a1
    · have : v2 = "hashes".toList ∨ v2 = "cardinalities".toList := accepts_two a2
      rw [o2.valueOf] at g5 g6
      rcases this with rfl | rfl
      · left
        refine ⟨rfl, ?_⟩
        simp only [ne_eq, not_true_eq_false, decide_false, Bool.false_or] at g5
        intro e0
        rw [List.flatMap_eq_nil_iff] at e0
        cases hf : (m.filter fun e => e.1 = "input") with
        | nil => rw [valuesOf_none.2 hf] at g5; cases g5
        | cons e l =>
          have hmem : e ∈ m.filter fun e => e.1 = "input" := by rw [hf]; simp
          exact hne e (List.mem_filter.1 hmem).1 (e0 e hmem)
      · right
        simp only [ne_eq, not_true_eq_false, decide_false, Bool.false_or, Bool.and_eq_true] at g6
        exact ⟨rfl, a5.2 g6.1, a6.2 g6.2⟩
    · intro e he
      obtain ⟨o, ho, hn, -⟩ := h.1 e he
      rw [← hn]
      simp only [runOpts, List.mem_cons, List.not_mem_nil, or_false] at ho
      rcases ho with rfl | rfl | rfl | rfl | rfl | rfl | rfl <;> simp
    · intro e he v hv
      obtain ⟨o, ho, hn, -, -, t3⟩ := h.1 e he
      exact isValue_iff.1 (t3 v hv).1
  · rintro ⟨type, mode, precision, output, inputs, runs, cards, hs, hm, hk, hp, o1, o2, o3, o4, o5, o6, hne, hi⟩
    refine ⟨⟨?_, ?_⟩, ?_⟩
    · intro e he
      have key : ∀ {n v} (o : Opt), Once m n v → e.1 = n → o ∈ runOpts → o.name = n → o.accepts v = true →
          ∃ o ∈ runOpts, o.name = e.1 ∧ Takes o e.2 := by
        intro n v o ho hn h1 h2 h3
        have e2 := once_mem ho he hn
        refine ⟨o, h1, by rw [h2, hn], ?_⟩
        rw [e2]
        refine ⟨by simp, .inr (by simp), fun w hw => ?_⟩
        obtain rfl : w = v := by simpa using hw
        exact ⟨isValue_iff.2 (hp e he w (by simp [e2])), h3⟩
      have key2 : ∀ {n v} (o : Opt), Optional m n v → e.1 = n → o ∈ runOpts → o.name = n → (∀ v, o.accepts v = true) →
          ∃ o ∈ runOpts, o.name = e.1 ∧ Takes o e.2 := by
        intro n v o ho hn h1 h2 h3
        cases v with
        | none => exact absurd hn (ho e he)
        | some v => exact key o ho hn h1 h2 (h3 v)
      have := hk e he
      simp only [List.mem_cons, List.not_mem_nil, or_false] at this
      rcases this with h | h | h | h | h | h | h
      · exact key { name := "type", possible := some ["hll", "hllp"] } o1 h (by simp [runOpts]) rfl
          (by rcases hs with rfl | rfl <;> decide)
      · exact key { name := "mode", possible := some ["hashes", "cardinalities"] } o2 h (by simp [runOpts]) rfl
          (by rcases hm with ⟨rfl, -⟩ | ⟨rfl, -⟩ <;> decide)
      · exact key { name := "precision" } o3 h (by simp [runOpts]) rfl rfl
      · exact key { name := "output" } o4 h (by simp [runOpts]) rfl rfl
      · exact ⟨{ name := "input", multiple := true }, by simp [runOpts], h.symm, hne e he, .inl rfl,
          fun v hv => ⟨isValue_iff.2 (hp e he v hv), rfl⟩⟩
      · exact key2 { name := "runs" } o5 h (by simp [runOpts]) rfl fun _ => rfl
      · exact key2 { name := "cardinalities" } o6 h (by simp [runOpts]) rfl fun _ => rfl
    · have key2 : ∀ {n v}, Optional m n v → (m.filter fun e => e.1 = n).length ≤ 1 := by
        intro n v ho
        cases v with
        | none => rw [List.filter_eq_nil_iff.2 (by simpa [Optional] using ho)]; simp
        | some v => rw [show (m.filter fun e => e.1 = n) = _ from ho]; simp
      intro o ho hmul
      simp only [runOpts, List.mem_cons, List.not_mem_nil, or_false] at ho
      rcases ho with rfl | rfl | rfl | rfl | rfl | rfl | rfl
      · rw [o1]; simp
      · rw [o2]; simp
      · rw [o3]; simp
      · cases hmul
      · exact key2 o5
      · exact key2 o6
      · rw [o4]; simp
    · have hin : inputs ≠ [] → (valuesOf m "input").isSome = true := by
        intro h0
        cases hv : valuesOf m "input" with
        | none => rw [valuesOf_none] at hv; rw [hv] at hi; exact absurd hi.symm h0
        | some _ => rfl
      rcases hm with ⟨rfl, h0⟩ | ⟨rfl, h1, h2⟩
      · simp [runRequired, given, o1.valuesOf, o2.valuesOf, o3.valuesOf, o4.valuesOf, o2.valueOf, hin h0]
      · obtain ⟨r, rfl⟩ := Option.ne_none_iff_exists'.1 h1
        obtain ⟨c, rfl⟩ := Option.ne_none_iff_exists'.1 h2
        simp [runRequired, given, o1.valuesOf, o2.valuesOf, o3.valuesOf, o4.valuesOf, o2.valueOf, o5.valuesOf, o6.valuesOf]

/-- A subcommand with its options. -/
def Body (ts : List Text) : Sub → Prop
  | .none => ts = []
  | .gen m => ts = "gen".toList :: words m ∧ ∃ size count runs output, GenOptions m size count runs output
  | .run m => ts = "run".toList :: words m ∧
    ∃ type mode precision output inputs runs cards, RunOptions m type mode precision output inputs runs cards

theorem body_iff {jobs jobs' : Option Text} {ts : List Text} {s : Sub} (ht : ts.head? ≠ some "--jobs".toList) :
    commandLine jobs ts = some (jobs', s) ↔ jobs' = jobs ∧ Body ts s := by
  cases ts with
  | nil =>
    rw [commandLine]
    constructor
    · intro h
      obtain ⟨rfl, rfl⟩ := by simpa using h
      exact ⟨rfl, rfl⟩
    · rintro ⟨rfl, h⟩
      cases s with
      | none => rfl
      | gen m => cases h.1
      | run m => cases h.1
  | cons t ts =>
    have ht' : t ≠ "--jobs".toList := by simpa using ht
    have hgr : "gen".toList ≠ "run".toList := by decide
    have hgen : commandLine jobs ("gen".toList :: ts) = some (jobs', s) ↔ jobs' = jobs ∧ Body ("gen".toList :: ts) s := by
      have e : commandLine jobs ("gen".toList :: ts) = match parseArgs genOpts none [] ts with
          | some m => if given m ["size", "count", "runs", "output"] then some (jobs, .gen m) else none
          | none => none := by
        cases ts <;> (rw [commandLine, if_pos rfl]; rfl)
      rw [e]
      constructor
      · intro h
        split at h
        · rename_i m hm
          split at h
          · rename_i hg
            obtain ⟨rfl, rfl⟩ := by simpa using h
            rw [parse_accepts genOpts_distinct] at hm
            exact ⟨rfl, by rw [hm.1], gen_iff.1 ⟨hm.2, hg⟩⟩
          · cases h
        · cases h
      · rintro ⟨rfl, h⟩
        cases s with
        | none => simp [Body] at h
        | run m => exact absurd (List.cons.inj h.1).1 hgr
        | gen m =>
          obtain ⟨h1, h2⟩ := gen_iff.2 h.2
          rw [(parse_accepts genOpts_distinct).2 ⟨(List.cons.inj h.1).2, h1⟩]
          simp [h2]
    have hrun : commandLine jobs ("run".toList :: ts) = some (jobs', s) ↔ jobs' = jobs ∧ Body ("run".toList :: ts) s := by
      have e : commandLine jobs ("run".toList :: ts) = match parseArgs runOpts none [] ts with
          | some m => if runRequired m then some (jobs, .run m) else none
          | none => none := by
        cases ts <;> (rw [commandLine, if_neg (by decide), if_pos rfl]; rfl)
      rw [e]
      constructor
      · intro h
        split at h
        · rename_i m hm
          split at h
          · rename_i hg
            obtain ⟨rfl, rfl⟩ := by simpa using h
            rw [parse_accepts runOpts_distinct] at hm
            exact ⟨rfl, by rw [hm.1], run_iff.1 ⟨hm.2, hg⟩⟩
          · cases h
        · cases h
      · rintro ⟨rfl, h⟩
        cases s with
        | none => simp [Body] at h
        | gen m => exact absurd (List.cons.inj h.1).1.symm hgr
        | run m =>
          obtain ⟨h1, h2⟩ := run_iff.2 h.2
          rw [(parse_accepts runOpts_distinct).2 ⟨(List.cons.inj h.1).2, h1⟩]
          simp [h2]
    by_cases h1 : t = "gen".toList
    · rw [h1]; exact hgen
    by_cases h2 : t = "run".toList
    · rw [h2]; exact hrun
    have e : commandLine jobs (t :: ts) = none := by
      cases ts <;> rw [commandLine, if_neg h1, if_neg h2, if_neg ht']
    rw [e]
    simp only [reduceCtorEq, false_iff]
    rintro ⟨-, h⟩
    cases s with
    | none => simp [Body] at h
    | gen m => exact h1 (List.cons.inj h.1).1
    | run m => exact h2 (List.cons.inj h.1).1

theorem jobs_again {j : Text} {ts : List Text} : commandLine (some j) ("--jobs".toList :: ts) = none := by
  cases ts with
  | nil => rw [commandLine, if_neg (by decide), if_neg (by decide), if_pos rfl]
  | cons t ts =>
    rw [commandLine, if_neg (by decide), if_neg (by decide), if_pos rfl]
    simp

theorem body_jobs {ts : List Text} {s : Sub} (h : Body ts s) : ts.head? ≠ some "--jobs".toList := by
  cases s with
  | none => rw [show ts = [] from h]; simp
  | gen m => rw [h.1]; simp
  | run m => rw [h.1]; simp

/-- The command lines that are accepted. -/
theorem commandLine_iff {argv : List Text} {jobs : Option Text} {s : Sub} :
    commandLine none argv = some (jobs, s) ↔
      ∃ front ts, Jobs front (jobs.getD "1".toList) ∧ (jobs = none ↔ front = []) ∧ argv = front ++ ts ∧ Body ts s := by
  constructor
  · intro h
    by_cases h0 : argv.head? = some "--jobs".toList
    · obtain ⟨ts, rfl⟩ : ∃ ts, argv = "--jobs".toList :: ts := by
        cases argv with
        | nil => simp at h0
        | cons t ts => exact ⟨ts, by rw [List.head?_cons, Option.some.injEq] at h0; rw [h0]⟩
      cases ts with
      | nil => rw [commandLine, if_neg (by decide), if_neg (by decide), if_pos rfl] at h; cases h
      | cons j ts =>
        rw [commandLine, if_neg (by decide), if_neg (by decide), if_pos rfl] at h
        simp only [Option.isNone_none, true_and] at h
        split at h
        · rename_i hj
          have h1 : ts.head? ≠ some "--jobs".toList := by
            intro h1
            cases ts with
            | nil => simp at h1
            | cons t ts =>
              rw [List.head?_cons, Option.some.injEq] at h1
              rw [h1, jobs_again] at h
              cases h
          obtain ⟨rfl, hb⟩ := (body_iff h1).1 h
          exact ⟨["--jobs".toList, j], ts, .inr ⟨rfl, isValue_iff.1 hj⟩, by simp, rfl, hb⟩
        · cases h
    · obtain ⟨rfl, hb⟩ := (body_iff h0).1 h
      exact ⟨[], argv, .inl ⟨rfl, rfl⟩, by simp, rfl, hb⟩
  · rintro ⟨front, ts, hj, hn, rfl, hb⟩
    have h1 := body_jobs hb
    rcases hj with ⟨rfl, -⟩ | ⟨rfl, hp⟩
    · obtain rfl := hn.2 rfl
      exact (body_iff h1).2 ⟨rfl, hb⟩
    · cases jobs with
      | none => simp at hn
      | some j =>
        rw [Option.getD_some] at hp ⊢
        rw [List.cons_append, List.cons_append, List.nil_append, commandLine, if_neg (by decide), if_neg (by decide),
          if_pos rfl]
        simp only [Option.isNone_none, true_and]
        rw [if_pos (isValue_iff.2 hp)]
        exact (body_iff h1).2 ⟨rfl, hb⟩

end HLL.Evl
