import Verif.SpecTravel
import Verif.Proofs.SetMachine
import Mathlib.Data.List.Forall2

/-! # Sketches that travel between processes -/

namespace HLL
open Spec

variable {St I : Type}

/-- What a file written on some machine of the system can be used for: any machine of the system
reads a sketch with the meaning `a` from it. -/
def FileMeans (site : Machine I → Site St I) (ρ : Machine I → St → Abs I → Prop) (ms : List (Machine I))
    (v : Value) (a : Abs I) : Prop :=
  ∀ m ∈ ms, ∃ s, (site m).load v = some s ∧ ρ m s a

theorem forall₂_getElem? {α β : Type} {ρ : α → β → Prop} {l : List α} {l' : List β}
    (h : List.Forall₂ ρ l l') (n : Nat) : Option.Rel ρ l[n]? l'[n]? := RelStore.get h n

/-- Reading the inputs of a job. -/
theorem load_inputs {site : Machine I → Site St I} {ρ : Machine I → St → Abs I → Prop}
    {ms : List (Machine I)} {m : Machine I} (hm : m ∈ ms) {files : List Value} {as : List (Abs I)}
    (h : List.Forall₂ (FileMeans site ρ ms) files as) : ∀ inputs : List Nat,
    Option.Rel (RelStore (ρ m)) (inputs.mapM (fun n => (files[n]?).bind (site m).load))
      (inputs.mapM (fun n => as[n]?))
  | [] => by simp only [List.mapM_nil]; exact .some .nil
  | n :: ns => by
    have ih := load_inputs hm h ns
    have hn := forall₂_getElem? h n
    simp only [List.mapM_cons]
    generalize files[n]? = x, as[n]? = y at hn ⊢
    cases hn with
    | none => exact .none
    | some hr =>
      obtain ⟨s, e1, e2⟩ := hr m hm
      simp only [Option.bind_eq_bind, Option.bind_some, e1]
      generalize List.mapM (fun n => (files[n]?).bind (site m).load) ns = x,
        List.mapM (fun n => as[n]?) ns = y at ih ⊢
      cases ih with
      | none => exact .none
      | some ih => exact .some (.cons e2 ih)

theorem forall₂_mapIdx {α β γ : Type} {ρ : α → β → Prop} {σ : γ → β → Prop} {f : Nat → α → γ}
    {l : List α} {l' : List β} (h : List.Forall₂ ρ l l') (hf : ∀ n a b, ρ a b → σ (f n a) b) :
    List.Forall₂ σ (l.mapIdx f) l' := by
  induction h generalizing f with
  | nil => exact .nil
  | cons h _ ih => rw [List.mapIdx_cons]; exact .cons (hf _ _ _ h) (ih fun n => hf (n + 1))

/-- Running jobs refines the specification, for any implementation of the set machine. -/
theorem travel_ok {w maxP : Nat} {site : Machine I → Site St I} {F : Machine I → Nat → Finset Nat → F64}
    {P : Machine I → Op I → Prop} {ρ : Machine I → St → Abs I → Prop} {ms : List (Machine I)}
    (hsim : ∀ m ∈ ms, Sim (P m) (site m).api (setApi w maxP (F m)) (ρ m))
    (hsave : ∀ m ∈ ms, ∀ n s a, ρ m s a → FileMeans site ρ ms ((site m).save n s) a) :
    ∀ (jobs : List (Job I)) (files : List Value) (as : List (Abs I)),
      (∀ j ∈ jobs, j.machine ∈ ms) → (∀ j ∈ jobs, ∀ op ∈ j.ops, P j.machine op) →
      List.Forall₂ (FileMeans site ρ ms) files as →
      travel site files jobs = .ok (expectedJobs w maxP F as jobs)
  | [], _, _, _, _, _ => rfl
  | j :: js, files, as, hms, hP, hf => by
    have hm := hms j (by simp)
    have hin := load_inputs hm hf j.inputs
    rw [travel, expectedJobs]
    generalize j.inputs.mapM (fun n => (files[n]?).bind (site j.machine).load) = x,
      j.inputs.mapM (fun n => as[n]?) = y at hin ⊢
    cases hin with
    | none => rfl
    | @some st t hst =>
      simp only [Option.bind_some]
      have hr := (hsim _ hm).run (site j.machine).ords (site j.machine).ords j.ops 0 0 _ _ hst
        (hP j (by simp))
      rw [run_setApi] at hr
      cases h1 : run (site j.machine).api (site j.machine).ords 0 st j.ops with
      | error e => rw [h1] at hr; exact hr.elim
      | ok x =>
        obtain ⟨x1, x2⟩ := x
        rw [h1] at hr
        obtain ⟨h2, h3⟩ := hr
        obtain rfl : x2 = _ := h3
        rw [ok_bind]
        simp only
        rw [travel_ok hsim hsave js _ (as ++ contentsFrom w maxP t j.ops) (fun j hj => hms j (by simp [hj]))
          (fun j hj => hP j (by simp [hj])) (List.rel_append hf (forall₂_mapIdx h2 (hsave _ hm))), ok_bind]
        rfl

/-- A condition on builder and precision can be carried along. -/
theorem Sim.carry {P : Op I → Prop} {a : Api St I} {ρ : St → Abs I → Prop} {w maxP : Nat}
    {F : Nat → Finset Nat → F64} (h : Sim P a (setApi w maxP F) ρ) (Q : (I → U64) → Nat → Prop) :
    Sim (fun op => P op ∧ ∀ p b, op = .new p b → 4 ≤ p → p ≤ maxP → Q b p) a (setApi w maxP F)
      (fun s t => ρ s t ∧ Q t.builder t.p) where
  new p f hp := by
    have := h.new p f hp.1
    simp only [setApi] at this ⊢
    by_cases hv : 4 ≤ p ∧ p ≤ maxP
    · rw [if_pos hv] at this ⊢
      cases e : a.new p f with
      | error x => rw [e] at this; exact this.elim
      | ok x =>
        rw [e] at this
        cases x with
        | error x => exact this.elim
        | ok x => exact ⟨this, hp.2 p f rfl hv.1 hv.2⟩
    · rw [if_neg hv] at this ⊢
      cases e : a.new p f with
      | error x => rw [e] at this; exact this.elim
      | ok x =>
        rw [e] at this
        cases x with
        | error x => exact this
        | ok x => exact this.elim
  insert o o' k s t v hr := by
    have := h.insert o o' k s t v hr.1
    simp only [setApi] at this ⊢
    cases e : a.insert o k s v with
    | error x => rw [e] at this; exact this.elim
    | ok x => rw [e] at this; exact ⟨this, hr.2⟩
  merge o₁ o₂ o₁' o₂' s t s' t' hr hr' := by
    have := h.merge o₁ o₂ o₁' o₂' s t s' t' hr.1 hr'.1
    simp only [setApi] at this ⊢
    cases e : a.merge o₁ o₂ s s' with
    | error x => rw [e] at this; exact this.elim
    | ok x =>
      rw [e] at this
      refine ⟨⟨this.1, ?_⟩, this.2⟩
      split
      · exact hr.2
      · exact hr.2
  count o o' s t hr := by
    have := h.count o o' s t hr.1
    simp only [setApi] at this ⊢
    cases e : a.count o s with
    | error x => rw [e] at this; exact this.elim
    | ok x => rw [e] at this; exact ⟨⟨this.1, hr.2⟩, this.2⟩
  reload i o o' s t hP hr := by
    have := h.reload i o o' s t hP.1 hr.1
    simp only [setApi] at this ⊢
    cases e : a.reload o s with
    | error x => rw [e] at this; exact this.elim
    | ok x =>
      rw [e] at this
      cases this with
      | some h => exact .some ⟨h, hr.2⟩

/-- The builder can be written and read by all machines, and they can count at this precision. -/
def Shared (ms : List (Machine I)) (b : I → U64) (p : Nat) : Prop :=
  (∀ m ∈ ms, ∀ m' ∈ ms, m'.codec.de (m.codec.ser b) = some b) ∧ ∀ m ∈ ms, 2 * p < m.cfg.usizeBits

theorem Plus.travel_ok {jobs : List (Job I)} {ms : List (Machine I)} (hms : ∀ j ∈ jobs, j.machine ∈ ms)
    (hbits : ∀ m ∈ ms, 32 ≤ m.cfg.usizeBits)
    (hnew : ∀ j ∈ jobs, ∀ p b, Op.new p b ∈ j.ops →
      (∀ m ∈ ms, ∀ m' ∈ ms, m'.codec.de (m.codec.ser b) = some b) ∧
        (p ≤ 18 → ∀ m ∈ ms, 2 * p < m.cfg.usizeBits)) :
    travel Plus.site [] jobs =
      .ok (expectedJobs 64 18 (fun m => plusCount m.ln (biasOf m.cfg.search)) [] jobs) := by
  refine HLL.travel_ok (P := fun m op => Allowed 18 m.cfg m.codec True op ∧
      ∀ p b, op = .new p b → 4 ≤ p → p ≤ 18 → Shared ms b p)
    (ρ := fun m s t => Plus.Means m.cfg m.codec True s t ∧ Shared ms t.builder t.p) (ms := ms)
    ?_ ?_ jobs [] [] hms ?_ .nil
  · intro m hm
    exact (Plus.sim m.cfg (hbits m hm) m.ln m.codec True).carry (Shared ms)
  · rintro m hm n s a ⟨⟨h1, h2, h3, h4⟩, h5⟩ m' hm'
    obtain ⟨s', e1, e2, e3⟩ := Plus.reload_ok m'.cfg (hbits m' hm')
      (c := ⟨m.codec.ser, m'.codec.de⟩) (m.saveOrd n) (s := s)
      (by rw [Serde.Codec.RoundTrips, h2]; exact h5.1 m hm m' hm') h1
    exact ⟨s', e1, ⟨e2, e3.trans h2, h5.2 m' hm', fun _ => h5.1 m' hm' m' hm'⟩, h5⟩
  · intro j hj op hop
    refine ⟨?_, ?_⟩
    · cases op with
      | new p b =>
        have := hnew j hj p b hop
        exact ⟨fun h => this.2 h _ (hms j hj), fun _ => this.1 _ (hms j hj) _ (hms j hj)⟩
      | reload i => exact trivial
      | _ => exact trivial
    · rintro p b rfl h1 h2
      have := hnew j hj p b hop
      exact ⟨this.1, this.2 h2⟩

theorem PF.travel_ok {jobs : List (Job I)} {ms : List (Machine I)} (hms : ∀ j ∈ jobs, j.machine ∈ ms)
    (hnew : ∀ j ∈ jobs, ∀ p b, Op.new p b ∈ j.ops →
      (∀ m ∈ ms, ∀ m' ∈ ms, m'.codec.de (m.codec.ser b) = some b) ∧
        (p ≤ 16 → ∀ m ∈ ms, 2 * p < m.cfg.usizeBits)) :
    travel PF.site [] jobs = .ok (expectedJobs 32 16 (fun m => pfCount m.ln) [] jobs) := by
  refine HLL.travel_ok (P := fun m op => Allowed 16 m.cfg m.codec True op ∧
      ∀ p b, op = .new p b → 4 ≤ p → p ≤ 16 → Shared ms b p)
    (ρ := fun m s t => PF.Means m.cfg m.codec True s t ∧ Shared ms t.builder t.p) (ms := ms)
    ?_ ?_ jobs [] [] hms ?_ .nil
  · intro m hm
    exact (PF.sim m.cfg m.ln m.codec True).carry (Shared ms)
  · rintro m hm n s a ⟨⟨h1, h2, h3, h4⟩, h5⟩ m' hm'
    have e := PF.reload_ok m'.cfg (by have := h5.2 m' hm'; omega)
      (c := ⟨m.codec.ser, m'.codec.de⟩) (s := s)
      (by rw [Serde.Codec.RoundTrips, h2]; exact h5.1 m hm m' hm') h1
    exact ⟨s, e, ⟨h1, h2, h5.2 m' hm', fun _ => h5.1 m' hm' m' hm'⟩, h5⟩
  · intro j hj op hop
    refine ⟨?_, ?_⟩
    · cases op with
      | new p b =>
        have := hnew j hj p b hop
        exact ⟨fun h => this.2 h _ (hms j hj), fun _ => this.1 _ (hms j hj) _ (hms j hj)⟩
      | reload i => exact trivial
      | _ => exact trivial
    · rintro p b rfl h1 h2
      have := hnew j hj p b hop
      exact ⟨this.1, this.2 h2⟩

end HLL
