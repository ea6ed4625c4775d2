import Verif.SpecHistory
import Verif.Proofs.Serde

/-! # Histories: every program observes what the set machine observes -/

namespace HLL
open Spec

variable {A B I : Type}

/-- Equal panics, or related values. -/
def RelR {α β : Type} (ρ : α → β → Prop) : R α → R β → Prop
  | .ok a, .ok b => ρ a b
  | .error e, .error e' => e = e'
  | _, _ => False

theorem RelR.bind {α β γ δ : Type} {ρ : α → β → Prop} {σ : γ → δ → Prop} {x : R α} {y : R β}
    {f : α → R γ} {g : β → R δ} (h : RelR ρ x y) (hf : ∀ a b, ρ a b → RelR σ (f a) (g b)) :
    RelR σ (x >>= f) (y >>= g) := by
  cases x <;> cases y
  · exact h
  · exact h.elim
  · exact h.elim
  · exact hf _ _ h

/-- `new` related. -/
def RelExcept (ρ : A → B → Prop) : Except HyperLogLogError A → Except HyperLogLogError B → Prop
  | .ok a, .ok b => ρ a b
  | .error e, .error e' => e = e'
  | _, _ => False

/-- Forward simulation between two interfaces; `P` restricts the calls made.
The hash set orders of both sides are unrelated. -/
structure Sim (P : Op I → Prop) (a : Api A I) (b : Api B I) (ρ : A → B → Prop) : Prop where
  new : ∀ p f, P (.new p f) → RelR (RelExcept ρ) (a.new p f) (b.new p f)
  insert : ∀ o o' k s t v, ρ s t → RelR ρ (a.insert o k s v) (b.insert o' k t v)
  merge : ∀ o₁ o₂ o₁' o₂' s t s' t', ρ s t → ρ s' t' →
    RelR (fun x y => ρ x.1 y.1 ∧ x.2 = y.2) (a.merge o₁ o₂ s s') (b.merge o₁' o₂' t t')
  count : ∀ o o' s t, ρ s t → RelR (fun x y => ρ x.1 y.1 ∧ x.2 = y.2) (a.count o s) (b.count o' t)
  reload : ∀ i o o' s t, P (.reload i) → ρ s t → RelR (Option.Rel ρ) (a.reload o s) (b.reload o' t)

/-- Stores related element-wise. -/
abbrev RelStore (ρ : A → B → Prop) : List A → List B → Prop := List.Forall₂ ρ

theorem RelStore.get {ρ : A → B → Prop} {l : List A} {m : List B} (h : RelStore ρ l m) (i : Nat) :
    Option.Rel ρ l[i]? m[i]? := by
  induction h generalizing i with
  | nil => simp
  | cons h _ ih =>
    cases i with
    | zero => simpa using h
    | succ i => simpa using ih i

theorem RelStore.set {ρ : A → B → Prop} {l : List A} {m : List B} (h : RelStore ρ l m) (i : Nat)
    {a : A} {b : B} (hab : ρ a b) : RelStore ρ (l.set i a) (m.set i b) := by
  induction h generalizing i with
  | nil => exact .nil
  | cons h h' ih =>
    cases i with
    | zero => exact .cons hab h'
    | succ i => exact .cons h (ih i)

theorem RelStore.snoc {ρ : A → B → Prop} {l : List A} {m : List B} (h : RelStore ρ l m)
    {a : A} {b : B} (hab : ρ a b) : RelStore ρ (l ++ [a]) (m ++ [b]) := by
  induction h with
  | nil => exact .cons hab .nil
  | cons h _ ih => exact .cons h ih

theorem Sim.step {P : Op I → Prop} {a : Api A I} {b : Api B I} {ρ : A → B → Prop}
    (h : Sim P a b ρ) (o o' : IterOrder × IterOrder) {st : List A} {tt : List B}
    (hst : RelStore ρ st tt) (op : Op I) (hop : P op) :
    RelR (fun x y => RelStore ρ x.1 y.1 ∧ x.2 = y.2) (HLL.step a o st op) (HLL.step b o' tt op) := by
  cases op with
  | new p f =>
    refine RelR.bind (h.new p f hop) ?_
    rintro (e | s) (e' | t) hr
    · cases hr; exact ⟨hst, rfl⟩
    · exact hr.elim
    · exact hr.elim
    · exact ⟨hst.snoc hr, rfl⟩
  | clone i =>
    have hg := hst.get i
    simp only [HLL.step]
    generalize st[i]? = x, tt[i]? = y at hg ⊢
    cases hg with
    | none => exact ⟨hst, rfl⟩
    | some hr => exact ⟨hst.snoc hr, rfl⟩
  | insert k i v =>
    have hg := hst.get i
    simp only [HLL.step]
    generalize st[i]? = x, tt[i]? = y at hg ⊢
    cases hg with
    | none => exact ⟨hst, rfl⟩
    | some hr =>
      refine RelR.bind (h.insert o.1 o'.1 k _ _ v hr) ?_
      intro s t hr
      exact ⟨hst.set i hr, rfl⟩
  | merge i j =>
    have hi := hst.get i
    have hj := hst.get j
    simp only [HLL.step]
    generalize st[i]? = x, tt[i]? = y at hi ⊢
    generalize st[j]? = x', tt[j]? = y' at hj ⊢
    cases hi with
    | none => exact ⟨hst, rfl⟩
    | some hr =>
      cases hj with
      | none => exact ⟨hst, rfl⟩
      | some hr' =>
        refine RelR.bind (h.merge o.1 o.2 o'.1 o'.2 _ _ _ _ hr hr') ?_
        rintro ⟨s, x⟩ ⟨t, y⟩ ⟨h1, h2⟩
        obtain rfl : x = y := h2
        exact ⟨hst.set i h1, rfl⟩
  | count i =>
    have hg := hst.get i
    simp only [HLL.step]
    generalize st[i]? = x, tt[i]? = y at hg ⊢
    cases hg with
    | none => exact ⟨hst, rfl⟩
    | some hr =>
      refine RelR.bind (h.count o.1 o'.1 _ _ hr) ?_
      rintro ⟨s, x⟩ ⟨t, y⟩ ⟨h1, h2⟩
      obtain rfl : x = y := h2
      exact ⟨hst.set i h1, rfl⟩
  | reload i =>
    have hg := hst.get i
    simp only [HLL.step]
    generalize st[i]? = x, tt[i]? = y at hg ⊢
    cases hg with
    | none => exact ⟨hst, rfl⟩
    | some hr =>
      refine RelR.bind (h.reload i o.1 o'.1 _ _ hop hr) ?_
      intro s t hr
      cases hr with
      | none => exact ⟨hst, rfl⟩
      | some hr => exact ⟨hst.snoc hr, rfl⟩

theorem Sim.run {P : Op I → Prop} {a : Api A I} {b : Api B I} {ρ : A → B → Prop}
    (h : Sim P a b ρ) (ords ords' : Nat → IterOrder × IterOrder) :
    ∀ (ops : List (Op I)) (n n' : Nat) (st : List A) (tt : List B), RelStore ρ st tt → (∀ op ∈ ops, P op) →
      RelR (fun x y => RelStore ρ x.1 y.1 ∧ x.2 = y.2) (HLL.run a ords n st ops)
        (HLL.run b ords' n' tt ops)
  | [], n, n', st, tt, hst, _ => ⟨hst, rfl⟩
  | op :: ops, n, n', st, tt, hst, hP => by
    refine RelR.bind (h.step (ords n) (ords' n') hst op
      (hP op (by simp))) ?_
    rintro ⟨st, o⟩ ⟨tt, o'⟩ ⟨h1, h2⟩
    obtain rfl : o = o' := h2
    refine RelR.bind (h.run ords ords' ops (n + 1) (n' + 1) st tt h1
      (fun o ho => hP o (by simp [ho]))) ?_
    rintro ⟨st, os⟩ ⟨tt, os'⟩ ⟨h1, h2⟩
    obtain rfl : os = os' := h2
    exact ⟨h1, rfl⟩

theorem Sim.outputs {P : Op I → Prop} {a : Api A I} {b : Api B I} {ρ : A → B → Prop}
    (h : Sim P a b ρ) (ords ords' : Nat → IterOrder × IterOrder) (ops : List (Op I))
    (hP : (∀ op ∈ ops, P op)) : outputs a ords ops = outputs b ords' ops := by
  have hr := h.run ords ords' ops 0 0 [] [] .nil hP
  unfold HLL.outputs
  cases h1 : HLL.run a ords 0 [] ops <;> cases h2 : HLL.run b ords' 0 [] ops <;> rw [h1, h2] at hr
  · obtain rfl := hr; rfl
  · exact hr.elim
  · exact hr.elim
  · rename_i x y
    obtain ⟨x1, x2⟩ := x
    obtain ⟨y1, y2⟩ := y
    obtain rfl : x2 = y2 := hr.2
    rfl

/-! ## The two sketches against the set machine -/

/-- The set machine as an interface. -/
def setApi (w maxP : Nat) (F : Nat → Finset Nat → F64) : Api (Abs I) I where
  new p b := .ok (if 4 ≤ p ∧ p ≤ maxP then .ok ⟨b, p, ∅⟩ else .error .InvalidPrecision)
  insert _ _ s v := .ok { s with S := insert ((s.builder v).toNat % 2 ^ w) s.S }
  merge _ _ s t := .ok (if s.p = t.p then ({ s with S := s.S ∪ t.S }, .ok ())
    else (s, .error .IncompatiblePrecision))
  count _ s := .ok (s, F s.p s.S)
  reload _ s := .ok (some s)

theorem set_self {α : Type} {l : List α} {i : Nat} {a : α} (h : l[i]? = some a) : l.set i a = l := by
  apply List.ext_getElem?
  intro j
  rw [List.getElem?_set]
  split
  · rename_i hij; subst hij
    rw [h]; split
    · rfl
    · rename_i hc; rw [List.getElem?_eq_none (by omega)] at h; cases h
  · rfl

theorem step_setApi (w maxP : Nat) (F : Nat → Finset Nat → F64) (o : IterOrder × IterOrder)
    (st : List (Abs I)) (op : Op I) :
    step (setApi w maxP F) o st op = .ok (effect w maxP st op, observe maxP F st op) := by
  cases op with
  | new p b =>
    simp only [step, setApi, effect, observe, ok_bind]
    by_cases h : 4 ≤ p ∧ p ≤ maxP
    · rw [if_pos h, if_pos h, if_pos h]; rfl
    · rw [if_neg h, if_neg h, if_neg h]; rfl
  | clone i =>
    simp only [step, effect, observe]
    cases st[i]? <;> rfl
  | insert k i v =>
    simp only [step, effect, observe, setApi]
    cases st[i]? <;> rfl
  | merge i j =>
    simp only [step, effect, observe, setApi]
    cases hi : st[i]? with
    | none => rfl
    | some s =>
      cases hj : st[j]? with
      | none => rfl
      | some t =>
        simp only [ok_bind]
        by_cases h : s.p = t.p
        · rw [if_pos h, if_pos h, if_pos h]; rfl
        · rw [if_neg h, if_neg h, if_neg h]; simp only [set_self hi]; rfl
  | count i =>
    simp only [step, effect, observe, setApi]
    cases hi : st[i]? with
    | none => rfl
    | some s => simp only [ok_bind, set_self hi]; rfl
  | reload i =>
    simp only [step, effect, observe, setApi]
    cases st[i]? <;> rfl

theorem run_setApi (w maxP : Nat) (F : Nat → Finset Nat → F64) (ords : Nat → IterOrder × IterOrder) :
    ∀ (ops : List (Op I)) (n : Nat) (st : List (Abs I)),
      run (setApi w maxP F) ords n st ops =
        .ok (contentsFrom w maxP st ops, expectedFrom w maxP F st ops)
  | [], _, _ => rfl
  | op :: ops, n, st => by
    rw [run, step_setApi, ok_bind]
    simp only
    rw [run_setApi w maxP F ords ops, ok_bind]
    rfl

theorem outputs_setApi (w maxP : Nat) (F : Nat → Finset Nat → F64)
    (ords : Nat → IterOrder × IterOrder) (ops : List (Op I)) :
    outputs (setApi w maxP F) ords ops = .ok (expected w maxP F ops) := by
  rw [outputs, run_setApi]; rfl

/-- A program run on an implementation of the set machine. -/
theorem Sim.run_ok {P : Op I → Prop} {a : Api A I} {ρ : A → Abs I → Prop} {w maxP : Nat}
    {F : Nat → Finset Nat → F64} (h : Sim P a (setApi w maxP F) ρ)
    (ords : Nat → IterOrder × IterOrder) (ops : List (Op I)) (hP : (∀ op ∈ ops, P op)) :
    ∃ st, HLL.run a ords 0 [] ops = .ok (st, expected w maxP F ops) ∧
      RelStore ρ st (contents w maxP ops) := by
  have hr := h.run ords ords ops 0 0 [] [] .nil hP
  rw [run_setApi] at hr
  cases h1 : HLL.run a ords 0 [] ops with
  | error e => rw [h1] at hr; exact hr.elim
  | ok x =>
    obtain ⟨x1, x2⟩ := x
    rw [h1] at hr
    obtain ⟨h2, h3⟩ := hr
    obtain rfl : x2 = _ := h3
    exact ⟨x1, rfl, h2⟩

theorem Sim.outputs_ok {P : Op I → Prop} {a : Api A I} {ρ : A → Abs I → Prop} {w maxP : Nat}
    {F : Nat → Finset Nat → F64} (h : Sim P a (setApi w maxP F) ρ)
    (ords : Nat → IterOrder × IterOrder) (ops : List (Op I)) (hP : (∀ op ∈ ops, P op)) :
    HLL.outputs a ords ops = .ok (expected w maxP F ops) := by
  obtain ⟨st, h1, _⟩ := h.run_ok ords ops hP
  rw [HLL.outputs, h1]; rfl

/-- Calls for which the set machine predicts the result: `count` does not overflow on the created
sketches, and if sketches are reloaded their builders round-trip. -/
def Allowed (maxP : Nat) (cfg : Cfg) (c : Serde.Codec I) (rl : Prop) : Op I → Prop
  | .new p b => (p ≤ maxP → 2 * p < cfg.usizeBits) ∧ (rl → c.RoundTrips b)
  | .reload _ => rl
  | _ => True

namespace Plus

/-- The sketch `s` means `a`; `rl` says whether sketches are reloaded. -/
def Means (cfg : Cfg) (c : Serde.Codec I) (rl : Prop) (s : Plus I) (a : Abs I) : Prop :=
  Rep a.p s a.S ∧ s.builder = a.builder ∧ 2 * a.p < cfg.usizeBits ∧ (rl → c.RoundTrips a.builder)

/-- Refinement of the set machine. -/
theorem sim (cfg : Cfg) (hcfg : 32 ≤ cfg.usizeBits) (ln : F64 → F64) (c : Serde.Codec I)
    (rl : Prop) :
    Sim (Allowed 18 cfg c rl) (Plus.api cfg ln c)
      (setApi 64 18 (plusCount ln (biasOf cfg.search))) (Means cfg c rl) where
  new p f hp := by
    by_cases hp' : 4 ≤ p ∧ p ≤ 18
    · obtain ⟨s, h1, h2, h3⟩ := new_ok cfg hcfg hp'.1 hp'.2 f
      simp only [Plus.api, setApi, h1, if_pos hp']
      exact ⟨h2.rep, h3, hp.1 hp'.2, hp.2⟩
    · simp only [Plus.api, setApi, if_neg hp', new_error cfg (by omega : p < 4 ∨ 18 < p) f]
      rfl
  insert o o' k s t v h := by
    obtain ⟨h1, h2, h3⟩ := h
    obtain ⟨s', e1, e2, e3⟩ := insertHash_ok cfg hcfg o h1 (s.builder v)
    have e : (Plus.api cfg ln c).insert o k s v = .ok s' := by
      cases k <;> exact e1
    rw [e]
    refine ⟨?_, e3.trans h2, h3⟩
    rw [h2] at e2
    have := (t.builder v).isLt
    rw [show (t.builder v).toNat % 2 ^ 64 = (t.builder v).toNat from Nat.mod_eq_of_lt this]
    exact e2
  merge o₁ o₂ o₁' o₂' s t s' t' h h' := by
    obtain ⟨h1, h2, h3⟩ := h
    obtain ⟨h1', h2', h3'⟩ := h'
    by_cases hp : t.p = t'.p
    · rw [← hp] at h1'
      obtain ⟨s'', e1, e2, e3⟩ := merge_ok cfg hcfg o₁ o₂ h1 h1'
      simp only [Plus.api, setApi, if_pos hp, e1]
      exact ⟨⟨e2, e3.trans h2, h3⟩, rfl⟩
    · simp only [Plus.api, setApi, if_neg hp]
      rw [merge_error cfg o₁ o₂ (by rw [h1.1.prec, h1'.1.prec]; exact hp)]
      exact ⟨⟨h1, h2, h3⟩, rfl⟩
  count o o' s t h := by
    obtain ⟨h1, h2, h3, h4⟩ := h
    obtain ⟨s', e1, e2, e3⟩ := count_ok cfg hcfg ln o (fun _ => h3) h1
    simp only [Plus.api, setApi, e1]
    exact ⟨⟨e2.rep, e3.trans h2, h3, h4⟩, rfl⟩
  reload i o o' s t hP h := by
    obtain ⟨h1, h2, h3, h4⟩ := h
    obtain ⟨s', e1, e2, e3⟩ := reload_ok cfg hcfg o (h2 ▸ h4 hP) h1
    simp only [Plus.api, setApi, e1]
    exact .some ⟨e2, e3.trans h2, h3, h4⟩

end Plus

namespace PF

/-- The sketch `s` means `a`; `rl` says whether sketches are reloaded. -/
def Means (cfg : Cfg) (c : Serde.Codec I) (rl : Prop) (s : PF I) (a : Abs I) : Prop :=
  Rep a.p s a.S ∧ s.builder = a.builder ∧ 2 * a.p < cfg.usizeBits ∧ (rl → c.RoundTrips a.builder)

/-- Refinement of the set machine. -/
theorem sim (cfg : Cfg) (ln : F64 → F64) (c : Serde.Codec I)
    (rl : Prop) :
    Sim (Allowed 16 cfg c rl) (PF.api cfg ln c)
      (setApi 32 16 (pfCount ln)) (Means cfg c rl) where
  new p f hp := by
    by_cases hp' : 4 ≤ p ∧ p ≤ 16
    · obtain ⟨s, h1, h2, h3⟩ := new_ok cfg (by have := hp.1 hp'.2; omega) hp'.1 hp'.2 f
      simp only [PF.api, setApi, h1, if_pos hp']
      exact ⟨h2, h3, hp.1 hp'.2, hp.2⟩
    · simp only [PF.api, setApi, if_neg hp', new_error cfg (by omega : p < 4 ∨ 16 < p) f]
      rfl
  insert o o' k s t v h := by
    obtain ⟨h1, h2, h3⟩ := h
    obtain ⟨s', e1, e2, e3⟩ := insertHash_ok cfg (by omega) h1 (s.builder v)
    have e : (PF.api cfg ln c).insert o k s v = .ok s' := by
      cases k <;> exact e1
    rw [e]
    refine ⟨?_, e3.trans h2, h3⟩
    rw [h2] at e2
    exact e2
  merge o₁ o₂ o₁' o₂' s t s' t' h h' := by
    obtain ⟨h1, h2, h3⟩ := h
    obtain ⟨h1', h2', h3'⟩ := h'
    by_cases hp : t.p = t'.p
    · rw [← hp] at h1'
      obtain ⟨s'', e1, e2, e3⟩ := merge_ok cfg (by omega) h1 h1'
      simp only [PF.api, setApi, if_pos hp, e1]
      exact ⟨⟨e2, e3.trans h2, h3⟩, rfl⟩
    · simp only [PF.api, setApi, if_neg hp]
      rw [merge_error cfg (by rw [h1.prec, h1'.prec]; exact hp)]
      exact ⟨⟨h1, h2, h3⟩, rfl⟩
  count o o' s t h := by
    obtain ⟨h1, h2, h3, h4⟩ := h
    simp only [PF.api, setApi, estimate_ok cfg ln h3 h1]
    exact ⟨⟨h1, h2, h3, h4⟩, rfl⟩
  reload i o o' s t hP h := by
    obtain ⟨h1, h2, h3, h4⟩ := h
    simp only [PF.api, setApi, reload_ok cfg (by omega) (h2 ▸ h4 hP) h1]
    exact .some ⟨h1, h2, h3, h4⟩

end PF
end HLL
