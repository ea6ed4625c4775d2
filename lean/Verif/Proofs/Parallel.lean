import Verif.Model.Parallel
import Mathlib.Algebra.BigOperators.Group.Finset.Basic
import Mathlib.Algebra.Order.BigOperators.Group.Finset
import Mathlib.Tactic.Linarith
import Mathlib.Tactic.FinCases
import Mathlib.Data.Fin.VecNotation

/-! # Interleaved tasks of the evaluation program -/

namespace HLL.Evl
open Finset

variable {Id : Type} [DecidableEq Id] {n jobs k : Nat} {T : Fin n → Task Id} {F₀ : Files Id}

omit [DecidableEq Id] in
/-- What a task computes if it runs alone on the files `F`. -/
def Task.result (t : Task Id) (F : Files Id) : R Text :=
  match t.input with
  | none => t.work []
  | some a => match F a with
    | none => .error .unwrapNone
    | some x => t.work x

theorem writeAt_end (w piece : Text) : writeAt w w.length piece = w ++ piece := by
  simp [writeAt]

/-- What is known of a task at a stage, `F` being the present files. -/
def Known (F₀ : Files Id) (t : Task Id) (F : Files Id) : Stage → Prop
  | .waiting => True
  | .reading got => ∃ a x, t.input = some a ∧ F₀ a = some x ∧ got <+: x
  | .ready y => t.result F₀ = .ok y
  | .writing pos rest => ∃ w, t.result F₀ = .ok (w ++ rest) ∧ w.length = pos ∧ F t.output = some w
  | .finished => ∃ y, t.result F₀ = .ok y
  | .panicked => ∃ e, t.result F₀ = .error e

/-- Has opened its output file. -/
def Stage.opened : Stage → Prop
  | .writing _ _ | .finished => True
  | _ => False

/-- Has its output file open. -/
def Stage.isWriting : Stage → Prop
  | .writing _ _ => True
  | _ => False

theorem active_of_writing {s : Stage} (h : s.isWriting) : s.active = true := by
  cases s <;> simp_all [Stage.isWriting, Stage.active]

/-- The invariant of executions in which no two tasks have the same output file open. -/
structure Inv (F₀ : Files Id) (T : Fin n → Task Id) (c : Config Id n) : Prop where
  other : ∀ a, (∀ i, (T i).output ≠ a) → c.files a = F₀ a
  known : ∀ i, Known F₀ (T i) c.files (c.stage i)
  out : ∀ i, (∃ m, (T m).output = (T i).output ∧ (c.stage m).isWriting) ∨
    (∃ m y, (T m).output = (T i).output ∧ c.stage m = .finished ∧ (T m).result F₀ = .ok y ∧
      c.files (T i).output = some y) ∨
    ((∀ m, (T m).output = (T i).output → ¬ (c.stage m).opened) ∧ c.files (T i).output = F₀ (T i).output)

omit [DecidableEq Id] in
theorem inv_start : Inv F₀ T (start F₀) where
  other := fun _ _ => rfl
  known := fun _ => trivial
  out := fun _ => Or.inr (Or.inr ⟨fun _ _ h => h, rfl⟩)

omit [DecidableEq Id] in
/-- Reading and computing does not change the files. -/
theorem Inv.quiet {c : Config Id n} (h : Inv F₀ T c) {i : Fin n} {s : Stage} (hs : ¬ s.opened)
    (hi : ¬ (c.stage i).opened) (hk : Known F₀ (T i) c.files s) :
    Inv F₀ T ⟨c.files, Function.update c.stage i s⟩ where
  other := h.other
  known := fun m => by
    by_cases e : m = i
    · subst e; simpa using hk
    · simpa [e] using h.known m
  out := fun m => by
    have hw : ∀ s : Stage, s.isWriting → s.opened := by intro s; cases s <;> simp [Stage.isWriting, Stage.opened]
    rcases h.out m with ⟨l, e1, e2⟩ | ⟨l, y, e1, e2, e3⟩ | ⟨e1, e2⟩
    · refine Or.inl ⟨l, e1, ?_⟩
      have : l ≠ i := by rintro rfl; exact hi (hw _ e2)
      simpa [this] using e2
    · refine Or.inr (Or.inl ⟨l, y, e1, ?_, e3⟩)
      have : l ≠ i := by rintro rfl; rw [e2] at hi; exact hi trivial
      simpa [this] using e2
    · refine Or.inr (Or.inr ⟨fun l hl => ?_, e2⟩)
      by_cases e : l = i
      · subst e; simpa using hs
      · simpa [e] using e1 l hl

/-- No two tasks have the same file open for writing. -/
def Exclusive (T : Fin n → Task Id) (c : Config Id n) : Prop :=
  ∀ i m, (T i).output = (T m).output → (c.stage i).isWriting → (c.stage m).isWriting → i = m

omit [DecidableEq Id] in
theorem exclusive (h : Function.Injective (fun i => (T i).output) ∨ jobs ≤ 1) {c : Config Id n}
    (hc : c.running ≤ jobs) : Exclusive T c := by
  intro i m e hi hm
  rcases h with h | h
  · exact h e
  · have : c.running ≤ 1 := hc.trans h
    exact Finset.card_le_one.1 this i (by simpa using active_of_writing hi) m (by simpa using active_of_writing hm)

omit [DecidableEq Id] in
theorem result_some {t : Task Id} {a : Id} {x : Text} (h : t.input = some a) (hx : F₀ a = some x) :
    t.result F₀ = t.work x := by simp [Task.result, h, hx]

/-- Writing by task `i`, which has its file to itself. -/
theorem Inv.write {c : Config Id n} (h : Inv F₀ T c) {i : Fin n} {w rest : Text}
    (hr : (T i).result F₀ = .ok (w ++ rest))
    (hx : Exclusive T ⟨Function.update c.files (T i).output (some w),
      Function.update c.stage i (.writing w.length rest)⟩) :
    Inv F₀ T ⟨Function.update c.files (T i).output (some w),
      Function.update c.stage i (.writing w.length rest)⟩ where
  other := fun a ha => by
    have := ha i
    simpa [Function.update, this.symm] using h.other a ha
  known := fun m => by
    by_cases e : m = i
    · subst e; simpa [Known] using hr
    · simp only [Function.update_of_ne e]
      have hm := h.known m
      cases hs : c.stage m with
      | writing pos rest' =>
        rw [hs] at hm
        obtain ⟨w', e1, e2, e3⟩ := hm
        refine ⟨w', e1, e2, ?_⟩
        have : (T m).output ≠ (T i).output := fun e4 => e (hx m i e4
          (by simp [e, hs, Stage.isWriting]) (by simp [Stage.isWriting]))
        rw [Function.update_of_ne this, e3]
      | _ => rw [hs] at hm; exact hm
  out := fun m => by
    by_cases e : (T i).output = (T m).output
    · exact Or.inl ⟨i, e, by simp [Stage.isWriting]⟩
    · have e' : (T m).output ≠ (T i).output := fun x => e x.symm
      rcases h.out m with ⟨l, e1, e2⟩ | ⟨l, y, e1, e2, e3, e4⟩ | ⟨e1, e2⟩
      · refine Or.inl ⟨l, e1, ?_⟩
        have : l ≠ i := by rintro rfl; exact e e1
        simpa [this] using e2
      · refine Or.inr (Or.inl ⟨l, y, e1, ?_, e3, by simpa [e'] using e4⟩)
        have : l ≠ i := by rintro rfl; exact e e1
        simpa [this] using e2
      · refine Or.inr (Or.inr ⟨fun l hl => ?_, by simpa [e'] using e2⟩)
        have : l ≠ i := by rintro rfl; exact e hl
        simpa [this] using e1 l hl

theorem Inv.next (hio : ∀ i m a, (T i).input = some a → (T m).output ≠ a)
    {c c' : Config Id n} (h : Inv F₀ T c) (hx : Exclusive T c') (hn : Next T jobs c c') : Inv F₀ T c' := by
  obtain ⟨i, F, s, hc, rfl, -⟩ := hn
  have hin : ∀ a, (T i).input = some a → c.files a = F₀ a := fun a ha => h.other a fun m => hio i m a ha
  have hk := h.known i
  generalize hs : c.stage i = s₀ at hc hk
  have hno : ∀ {s : Stage}, s₀ = s → ¬ s.opened → ¬ (c.stage i).opened := fun e k => by rwa [hs, e]
  cases hc with
  | draw h1 h2 => exact h.quiet (by simp [Stage.opened]) (hno rfl (by simp [Stage.opened])) (by simpa [Known, Task.result, h1] using h2)
  | drawPanic h1 h2 =>
    exact h.quiet (by simp [Stage.opened]) (hno rfl (by simp [Stage.opened])) ⟨_, by simpa [Task.result, h1] using h2⟩
  | missing h1 h2 =>
    rw [hin _ h1] at h2
    exact h.quiet (by simp [Stage.opened]) (hno rfl (by simp [Stage.opened])) ⟨_, by simp [Task.result, h1, h2]; rfl⟩
  | «open» h1 h2 =>
    rw [hin _ h1] at h2
    exact h.quiet (by simp [Stage.opened]) (hno rfl (by simp [Stage.opened])) ⟨_, _, h1, h2, List.nil_prefix⟩
  | read h1 h2 h3 h4 =>
    rw [hin _ h1] at h2
    obtain ⟨a', x', k1, k2, k3⟩ := hk
    rw [h1] at k1
    obtain rfl : _ = a' := Option.some.inj k1
    obtain rfl : _ = x' := Option.some.inj (h2.symm.trans k2)
    refine h.quiet (by simp [Stage.opened]) (hno rfl (by simp [Stage.opened])) ⟨_, _, h1, h2, ?_⟩
    obtain ⟨t, rfl⟩ := k3
    rw [List.drop_left] at h4
    rw [h4]
    exact ⟨_, List.append_assoc _ _ _⟩
  | eof h1 h2 h3 h4 =>
    rw [hin _ h1] at h2
    obtain ⟨a', x', k1, k2, k3⟩ := hk
    rw [h1] at k1
    obtain rfl : _ = a' := Option.some.inj k1
    obtain rfl : _ = x' := Option.some.inj (h2.symm.trans k2)
    obtain ⟨t, rfl⟩ := k3
    rw [List.drop_left] at h3
    subst h3
    rw [List.append_nil] at h2
    exact h.quiet (by simp [Stage.opened]) (hno rfl (by simp [Stage.opened])) (by
      show _ = _
      rw [result_some h1 h2, h4])
  | eofPanic h1 h2 h3 h4 =>
    rw [hin _ h1] at h2
    obtain ⟨a', x', k1, k2, k3⟩ := hk
    rw [h1] at k1
    obtain rfl : _ = a' := Option.some.inj k1
    obtain rfl : _ = x' := Option.some.inj (h2.symm.trans k2)
    obtain ⟨t, rfl⟩ := k3
    rw [List.drop_left] at h3
    subst h3
    rw [List.append_nil] at h2
    exact h.quiet (by simp [Stage.opened]) (hno rfl (by simp [Stage.opened])) ⟨_, by rw [result_some h1 h2, h4]⟩
  | create => exact h.write (w := []) (by simpa [Known] using hk) hx
  | @write x pos piece more h1 h2 =>
    obtain ⟨w, k1, rfl, k3⟩ := hk
    obtain rfl : x = w := Option.some.inj (h1.symm.trans k3)
    rw [writeAt_end] at hx ⊢
    rw [← List.length_append] at hx ⊢
    exact h.write (by rw [k1, List.append_assoc]) hx
  | close =>
    obtain ⟨w, k1, rfl, k3⟩ := hk
    rw [List.append_nil] at k1
    refine ⟨h.other, fun m => ?_, fun m => ?_⟩
    · by_cases e : m = i
      · subst e; simpa [Known] using ⟨w, k1⟩
      · simpa [e] using h.known m
    · by_cases e : (T i).output = (T m).output
      · exact Or.inr (Or.inl ⟨i, w, e, by simp, k1, by rw [← e]; exact k3⟩)
      · rcases h.out m with ⟨l, e1, e2⟩ | ⟨l, y, e1, e2, e3⟩ | ⟨e1, e2⟩
        · refine Or.inl ⟨l, e1, ?_⟩
          have : l ≠ i := by rintro rfl; exact e e1
          simpa [this] using e2
        · refine Or.inr (Or.inl ⟨l, y, e1, ?_, e3⟩)
          have : l ≠ i := by rintro rfl; exact e e1
          simpa [this] using e2
        · refine Or.inr (Or.inr ⟨fun l hl => ?_, e2⟩)
          have : l ≠ i := by rintro rfl; exact e hl
          simpa [this] using e1 l hl

omit [DecidableEq Id] in
theorem running_start : (start F₀ : Config Id n).running = 0 := by simp [Config.running, start, Stage.active]

theorem Exec.running {c : Config Id n} (h : Exec T jobs k (start F₀) c) : c.running ≤ jobs := by
  cases h with
  | refl => rw [running_start]; omega
  | step _ h2 => obtain ⟨_, _, _, _, _, h3⟩ := h2; exact h3

theorem Exec.inv (hio : ∀ i m a, (T i).input = some a → (T m).output ≠ a)
    (hd : Function.Injective (fun i => (T i).output) ∨ jobs ≤ 1) {c : Config Id n}
    (h : Exec T jobs k (start F₀) c) : Inv F₀ T c := by
  generalize hs : (start F₀ : Config Id n) = c₀ at h
  induction h with
  | refl => subst hs; exact inv_start
  | step h1 h2 ih =>
    subst hs
    exact (ih rfl).next hio (exclusive hd (h1.step h2).running) h2

/-! ## Progress and termination -/

omit [DecidableEq Id] in
/-- Number of characters that a task reads and writes. -/
def Task.cost (t : Task Id) (F : Files Id) : Nat :=
  (match t.input with
  | none => 0
  | some a => ((F a).getD []).length) +
  match t.result F with
  | .ok y => y.length
  | .error _ => 0

/-- What is left to do. -/
def left (F₀ : Files Id) (t : Task Id) : Stage → Nat
  | .waiting => t.cost F₀ + 5
  | .reading got => t.cost F₀ - got.length + 4
  | .ready y => y.length + 3
  | .writing _ rest => rest.length + 1
  | .finished => 0
  | .panicked => 0

theorem Inv.left_lt (hio : ∀ i m a, (T i).input = some a → (T m).output ≠ a)
    {c c' : Config Id n} (h : Inv F₀ T c) (hn : Next T jobs c c') :
    ∑ i, left F₀ (T i) (c'.stage i) < ∑ i, left F₀ (T i) (c.stage i) := by
  obtain ⟨i, F, s, hc, rfl, -⟩ := hn
  have hin : ∀ a, (T i).input = some a → c.files a = F₀ a := fun a ha => h.other a fun m => hio i m a ha
  have key : left F₀ (T i) s < left F₀ (T i) (c.stage i) := by
    have hk := h.known i
    generalize hs : c.stage i = s₀ at hc hk
    cases hc with
    | draw h1 h2 => simp [left, Task.cost, Task.result, h1, h2]
    | drawPanic h1 h2 => simp [left]
    | missing h1 h2 => simp [left]
    | «open» h1 h2 => simp [left]
    | @read a x got piece more h1 h2 h3 h4 =>
      rw [hin _ h1] at h2
      have h5 := congrArg List.length h4
      rw [List.length_drop, List.length_append] at h5
      have h6 := List.length_pos_iff.2 h3
      simp only [left, Task.cost, h1, h2, List.length_append, Option.getD_some]
      omega
    | @eof a x got y h1 h2 h3 h4 =>
      rw [hin _ h1] at h2
      obtain ⟨a', x', k1, k2, k3⟩ := hk
      rw [h1] at k1
      obtain rfl : _ = a' := Option.some.inj k1
      obtain rfl : _ = x' := Option.some.inj (h2.symm.trans k2)
      obtain ⟨t, rfl⟩ := k3
      rw [List.drop_left] at h3
      subst h3
      rw [List.append_nil] at h2
      simp only [left, Task.cost, result_some h1 h2, h4, h1, h2, Option.getD_some]
      omega
    | eofPanic => simp [left]
    | create => simp [left]
    | @write x pos piece more h1 h2 =>
      have h6 := List.length_pos_iff.2 h2
      simp only [left, List.length_append]
      omega
    | close => simp [left]
  refine Finset.sum_lt_sum (fun m _ => ?_) ⟨i, Finset.mem_univ _, by simpa using key⟩
  by_cases e : m = i
  · subst e; simpa using key.le
  · simp [e]

theorem Exec.length_le (hio : ∀ i m a, (T i).input = some a → (T m).output ≠ a)
    (hd : Function.Injective (fun i => (T i).output) ∨ jobs ≤ 1) {c : Config Id n}
    (h : Exec T jobs k (start F₀) c) :
    k + ∑ i, left F₀ (T i) (c.stage i) ≤ ∑ i, ((T i).cost F₀ + 5) := by
  generalize hs : (start F₀ : Config Id n) = c₀ at h
  induction h with
  | refl => subst hs; simp [start, left]
  | step h1 h2 ih =>
    subst hs
    have h3 := (h1.inv hio hd).left_lt hio h2
    have := ih rfl
    omega

/-- There is a next call as long as some task is not at its end. -/
theorem Inv.progress (hj : 1 ≤ jobs) (hio : ∀ i m a, (T i).input = some a → (T m).output ≠ a)
    {c : Config Id n} (h : Inv F₀ T c) (hr : c.running ≤ jobs) (hf : ∃ i, (c.stage i).over = false) :
    ∃ c', Next T jobs c c' := by
  have hup : ∀ (i : Fin n) (F : Files Id) (s : Stage), ((c.stage i).active = true ∨ s.active = false) →
      (⟨F, Function.update c.stage i s⟩ : Config Id n).running ≤ jobs := by
    intro i F s hs
    refine le_trans (Finset.card_le_card fun m hm => ?_) hr
    rw [Finset.mem_filter] at hm ⊢
    refine ⟨Finset.mem_univ _, ?_⟩
    by_cases e : m = i
    · subst e
      rcases hs with hs | hs
      · exact hs
      · simp [hs] at hm
    · simpa [e] using hm.2
  have hin : ∀ i a, (T i).input = some a → c.files a = F₀ a := fun i a ha => h.other a fun m => hio i m a ha
  by_cases ha : ∃ i, (c.stage i).active = true
  · obtain ⟨i, hi⟩ := ha
    have hk := h.known i
    cases hs : c.stage i with
    | waiting => simp [hs, Stage.active] at hi
    | finished => simp [hs, Stage.active] at hi
    | panicked => simp [hs, Stage.active] at hi
    | reading got =>
      rw [hs] at hk
      obtain ⟨a, x, k1, k2, t, rfl⟩ := hk
      rw [← hin i a k1] at k2
      rcases t with _ | ⟨ch, t⟩
      · have hd : (got ++ []).drop got.length = [] := by simp
        cases hw : (T i).work got with
        | ok y => exact ⟨_, i, _, _, by rw [hs]; exact .eof k1 k2 hd hw, rfl, hup i _ _ (.inl hi)⟩
        | error e => exact ⟨_, i, _, _, by rw [hs]; exact .eofPanic k1 k2 hd hw, rfl, hup i _ _ (.inl hi)⟩
      · exact ⟨_, i, _, _, by rw [hs]; exact .read (piece := [ch]) (more := t) k1 k2 (by simp) (by simp), rfl,
          hup i _ _ (.inl hi)⟩
    | ready y => exact ⟨_, i, _, _, by rw [hs]; exact .create, rfl, hup i _ _ (.inl hi)⟩
    | writing pos rest =>
      rw [hs] at hk
      obtain ⟨w, k1, k2, k3⟩ := hk
      rcases rest with _ | ⟨ch, t⟩
      · exact ⟨_, i, _, _, by rw [hs]; exact .close, rfl, hup i _ _ (.inl hi)⟩
      · exact ⟨_, i, _, _, by rw [hs]; exact .write (piece := [ch]) (more := t) k3 (by simp), rfl, hup i _ _ (.inl hi)⟩
  · push Not at ha
    obtain ⟨i, hi⟩ := hf
    have hone : ∀ (F : Files Id) (s : Stage),
        (⟨F, Function.update c.stage i s⟩ : Config Id n).running ≤ jobs := by
      intro F s
      refine le_trans (Finset.card_le_one.2 fun m hm l hl => ?_) hj
      have : ∀ m ∈ Finset.univ.filter (fun m => (Function.update c.stage i s m).active = true), m = i := by
        intro m hm
        by_contra e
        rw [Finset.mem_filter, Function.update_of_ne e] at hm
        exact ha m hm.2
      rw [this m hm, this l hl]
    have hs : c.stage i = .waiting := by
      cases e : c.stage i <;> have := ha i <;> simp_all [Stage.over, Stage.active]
    cases h1 : (T i).input with
    | none =>
      cases hw : (T i).work [] with
      | ok y => exact ⟨_, i, _, _, by rw [hs]; exact .draw h1 hw, rfl, hone _ _⟩
      | error e => exact ⟨_, i, _, _, by rw [hs]; exact .drawPanic h1 hw, rfl, hone _ _⟩
    | some a =>
      cases h2 : c.files a with
      | none => exact ⟨_, i, _, _, by rw [hs]; exact .missing h1 h2, rfl, hone _ _⟩
      | some x => exact ⟨_, i, _, _, by rw [hs]; exact .open h1 h2, rfl, hone _ _⟩

/-! ## Results -/

/-- Anything that a task without conflicting output has written is what it computes alone. -/
theorem Exec.final (hio : ∀ i m a, (T i).input = some a → (T m).output ≠ a)
    (hd : Function.Injective (fun i => (T i).output)) {c : Config Id n}
    (h : Exec T jobs k (start F₀) c) (i : Fin n) :
    (c.stage i = .finished → ∃ y, (T i).result F₀ = .ok y ∧ c.files (T i).output = some y) ∧
    (c.stage i = .panicked → (∃ e, (T i).result F₀ = .error e) ∧ c.files (T i).output = F₀ (T i).output) := by
  have hv := h.inv hio (.inl hd)
  constructor
  · intro hs
    rcases hv.out i with ⟨m, e1, e2⟩ | ⟨m, y, e1, e2, e3, e4⟩ | ⟨e1, e2⟩
    · obtain rfl := hd e1
      rw [hs] at e2; exact e2.elim
    · obtain rfl := hd e1
      exact ⟨y, e3, e4⟩
    · exact (e1 i rfl (by rw [hs]; trivial)).elim
  · intro hs
    have hk := hv.known i
    rw [hs] at hk
    refine ⟨hk, ?_⟩
    rcases hv.out i with ⟨m, e1, e2⟩ | ⟨m, y, e1, e2, e3, e4⟩ | ⟨e1, e2⟩
    · obtain rfl := hd e1
      rw [hs] at e2; exact e2.elim
    · obtain rfl := hd e1
      rw [hs] at e2; cases e2
    · exact e2

/-- At any time an output file is as it was, or holds the beginning of what its task computes. -/
theorem Exec.always (hio : ∀ i m a, (T i).input = some a → (T m).output ≠ a)
    (hd : Function.Injective (fun i => (T i).output)) {c : Config Id n}
    (h : Exec T jobs k (start F₀) c) (i : Fin n) :
    c.files (T i).output = F₀ (T i).output ∨
      ∃ y w, (T i).result F₀ = .ok y ∧ w <+: y ∧ c.files (T i).output = some w := by
  have hv := h.inv hio (.inl hd)
  rcases hv.out i with ⟨m, e1, e2⟩ | ⟨m, y, e1, e2, e3, e4⟩ | ⟨e1, e2⟩
  · obtain rfl := hd e1
    have hk := hv.known m
    cases hs : c.stage m with
    | writing pos rest =>
      rw [hs] at hk
      obtain ⟨w, k1, k2, k3⟩ := hk
      exact Or.inr ⟨_, w, k1, ⟨_, rfl⟩, k3⟩
    | _ => rw [hs] at e2; exact e2.elim
  · obtain rfl := hd e1
    exact Or.inr ⟨y, y, e3, List.prefix_rfl, e4⟩
  · exact Or.inl e2

/-- With one thread an output file holds in the end what one of the tasks with that file computes. -/
theorem Exec.final_one (hio : ∀ i m a, (T i).input = some a → (T m).output ≠ a) {c : Config Id n}
    (h : Exec T 1 k (start F₀) c) (ho : ∀ i, (c.stage i).over = true) (i : Fin n) (hi : c.stage i = .finished) :
    ∃ m y, (T m).output = (T i).output ∧ (T m).result F₀ = .ok y ∧ c.files (T i).output = some y := by
  have hv := h.inv hio (.inr le_rfl)
  rcases hv.out i with ⟨m, e1, e2⟩ | ⟨m, y, e1, e2, e3, e4⟩ | ⟨e1, e2⟩
  · have := ho m
    cases hs : c.stage m <;> simp_all [Stage.isWriting, Stage.over]
  · exact ⟨m, y, e1, e3, e4⟩
  · exact (e1 i rfl (by rw [hi]; trivial)).elim

/-! ## A race -/

theorem Exec.trans {j k : Nat} {c c' c'' : Config Id n} (h : Exec T jobs j c c') (h' : Exec T jobs k c' c'') :
    Exec T jobs (j + k) c c'' := by
  induction h' with
  | refl => exact h
  | step _ h2 ih => exact (ih h).step h2

omit [DecidableEq Id] in
theorem running_le (c : Config Id 2) : c.running ≤ 2 := (Finset.card_filter_le _ _).trans (by simp)

theorem next0 {T : Fin 2 → Task Id} (hj : 2 ≤ jobs) {F F' : Files Id} {s s' t : Stage} (h : Call (T 0) F s F' s') :
    Next T jobs ⟨F, ![s, t]⟩ ⟨F', ![s', t]⟩ :=
  ⟨0, F', s', h, by congr 1; ext i; fin_cases i <;> rfl, (running_le _).trans hj⟩

theorem next1 {T : Fin 2 → Task Id} (hj : 2 ≤ jobs) {F F' : Files Id} {s s' t : Stage} (h : Call (T 1) F s F' s') :
    Next T jobs ⟨F, ![t, s]⟩ ⟨F', ![t, s']⟩ :=
  ⟨1, F', s', h, by congr 1; ext i; fin_cases i <;> rfl, (running_le _).trans hj⟩

/-- Both tasks have computed what they will write. -/
theorem both_ready {T : Fin 2 → Task Id} {a b : Id} {u v x y : Text} (hj : 2 ≤ jobs)
    (ha : (T 0).input = some a) (hb : (T 1).input = some b) (hau : F₀ a = some u) (hbv : F₀ b = some v)
    (hx : (T 0).work u = .ok x) (hy : (T 1).work v = .ok y) :
    ∃ k, Exec T jobs k (start F₀) ⟨F₀, ![.ready x, .ready y]⟩ := by
  have hs : (start F₀ : Config Id 2) = ⟨F₀, ![.waiting, .waiting]⟩ := by
    unfold start; congr 1; ext i; fin_cases i <;> rfl
  have r0 : ∃ k, Exec T jobs k ⟨F₀, ![.waiting, .waiting]⟩ ⟨F₀, ![.reading u, .waiting]⟩ := by
    have e := (Exec.refl (T := T) (jobs := jobs)).step (next0 (t := .waiting) hj (Call.open ha hau))
    rcases u with _ | ⟨ch, u⟩
    · exact ⟨_, e⟩
    · exact ⟨_, e.step (next0 hj (.read (piece := ch :: u) (more := []) ha hau (by simp) (by simp)))⟩
  have r1 : ∃ k, Exec T jobs k ⟨F₀, ![.ready x, .waiting]⟩ ⟨F₀, ![.ready x, .reading v]⟩ := by
    have e := (Exec.refl (T := T) (jobs := jobs)).step (next1 (t := .ready x) hj (Call.open hb hbv))
    rcases v with _ | ⟨ch, v⟩
    · exact ⟨_, e⟩
    · exact ⟨_, e.step (next1 hj (.read (piece := ch :: v) (more := []) hb hbv (by simp) (by simp)))⟩
  obtain ⟨k0, r0⟩ := r0
  obtain ⟨k1, r1⟩ := r1
  have e1 := (r0.step (next0 hj (.eof ha hau (by simp) hx))).trans r1
  rw [hs]
  exact ⟨_, e1.step (next1 hj (.eof hb hbv (by simp) hy))⟩

/-- Two tasks with the same output file, both finished, with a file that neither of them would write: the second
empties the file before the first writes, and the longer text is written first. -/
theorem race {T : Fin 2 → Task Id} {a b : Id} {u v x y : Text} (hj : 2 ≤ jobs)
    (ha : (T 0).input = some a) (hb : (T 1).input = some b)
    (ho : (T 0).output = (T 1).output) (hau : F₀ a = some u) (hbv : F₀ b = some v)
    (hx : (T 0).work u = .ok x) (hy : (T 1).work v = .ok y) (hx0 : x ≠ []) (hlen : x.length ≤ y.length) :
    ∃ k F, Exec T jobs k (start F₀) ⟨F, fun _ => .finished⟩ ∧
      F (T 0).output = some (x ++ y.drop x.length) := by
  have hy0 : y ≠ [] := by rintro rfl; simp at hlen; exact hx0 hlen
  obtain ⟨k2, e2⟩ := both_ready hj ha hb hau hbv hx hy
  have e3 := e2.step (next0 hj .create)
  have e4 := e3.step (next1 hj .create)
  rw [← List.append_nil y, ← List.append_nil x] at e4
  have e5 := e4.step (next1 hj (.write (Function.update_self _ _ _) hy0))
  rw [← ho] at e5
  have e6 := e5.step (next0 hj (.write (Function.update_self _ _ _) hx0))
  have e7 := (e6.step (next0 hj .close)).step (next1 hj .close)
  have hf : (![.finished, .finished] : Fin 2 → Stage) = fun _ => .finished := by
    ext i; fin_cases i <;> rfl
  rw [hf] at e7
  exact ⟨_, _, e7, by simp [writeAt]⟩

/-- The same with a gap: the longer text is written in two pieces, and the file is emptied between them. -/
theorem race_gap {T : Fin 2 → Task Id} {a b : Id} {u v x y z : Text} (hj : 2 ≤ jobs)
    (ha : (T 0).input = some a) (hb : (T 1).input = some b)
    (ho : (T 0).output = (T 1).output) (hau : F₀ a = some u) (hbv : F₀ b = some v)
    (hx : (T 0).work u = .ok x) (hy : (T 1).work v = .ok (y ++ z)) (hx0 : x ≠ []) (hz0 : z ≠ [])
    (hlen : x.length ≤ y.length) :
    ∃ k F, Exec T jobs k (start F₀) ⟨F, fun _ => .finished⟩ ∧
      F (T 0).output = some (x ++ List.replicate (y.length - x.length) '\x00' ++ z) := by
  have hy0 : y ≠ [] := by rintro rfl; simp at hlen; exact hx0 hlen
  obtain ⟨k2, e2⟩ := both_ready hj ha hb hau hbv hx hy
  have e3 := e2.step (next1 hj .create)
  have e4 := e3.step (next1 hj (.write (Function.update_self _ _ _) hy0))
  have e5 := e4.step (next0 hj .create)
  rw [ho, ← List.append_nil z, ← List.append_nil x] at e5
  have e6 := e5.step (next1 hj (.write (Function.update_self _ _ _) hz0))
  rw [← ho] at e6
  have e7 := e6.step (next0 hj (.write (Function.update_self _ _ _) hx0))
  have e8 := (e7.step (next0 hj .close)).step (next1 hj .close)
  have hf : (![.finished, .finished] : Fin 2 → Stage) = fun _ => .finished := by
    ext i; fin_cases i <;> rfl
  rw [hf] at e8
  refine ⟨_, _, e8, ?_⟩
  rw [Function.update_self]
  have h0 : x.length - y.length = 0 := by omega
  simp [writeAt, List.drop_append, h0]

end HLL.Evl
