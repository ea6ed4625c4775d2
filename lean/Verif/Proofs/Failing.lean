import Verif.Model.Failing
import Verif.Proofs.Parallel

/-! # The evaluation program when reading and writing can fail -/

namespace HLL.Evl
open Finset

variable {Id : Type} [DecidableEq Id] {n jobs k f : Nat} {T : Fin n → Task Id} {F₀ : Files Id}

/-! ## Executions without a failed task -/

/-- Panicked or panicking. -/
def FStage.lost : FStage → Prop
  | .ordinary .panicked => True
  | .unwinding _ _ => True
  | _ => False

theorem FCall.lost {t : Task Id} {b : Bool} {F F' : Files Id} {s s' : FStage} (h : FCall t b F s F' s')
    (hs : s.lost) : s'.lost := by
  cases h with
  | call h => cases h <;> exact hs.elim
  | openFails _ => trivial
  | readFails => trivial
  | createFails => trivial
  | writeFails _ => trivial
  | dropWrite _ _ => trivial
  | dropFails _ => trivial
  | dropDone => trivial

theorem FCall.lost_of_failed {t : Task Id} {F F' : Files Id} {s s' : FStage} (h : FCall t true F s F' s') :
    s'.lost := by
  cases h <;> trivial

omit [DecidableEq Id] in
/-- A configuration without unwinding. -/
def lift (c : Config Id n) : FConfig Id n := ⟨c.files, fun i => .ordinary (c.stage i)⟩

omit [DecidableEq Id] in
theorem lift_running (c : Config Id n) : (lift c).running = c.running := rfl

omit [DecidableEq Id] in
theorem lift_update {c : Config Id n} {F : Files Id} {i : Fin n} {s : Stage} :
    (⟨F, Function.update (lift c).stage i (.ordinary s)⟩ : FConfig Id n)
      = lift ⟨F, Function.update c.stage i s⟩ := by
  simp only [lift, FConfig.mk.injEq, true_and]
  funext j
  by_cases e : j = i
  · subst e; simp
  · simp [e]

theorem FCall.of_ordinary {t : Task Id} {b : Bool} {F F' : Files Id} {s : Stage} {s' : FStage}
    (h : FCall t b F (.ordinary s) F' s') : s'.lost ∨ b = false ∧ ∃ s₁, s' = .ordinary s₁ ∧ Call t F s F' s₁ := by
  cases h with
  | call h => exact Or.inr ⟨rfl, _, rfl, h⟩
  | openFails _ => exact Or.inl trivial
  | readFails => exact Or.inl trivial
  | createFails => exact Or.inl trivial
  | writeFails _ => exact Or.inl trivial

theorem FExec.ordinary {c : FConfig Id n} (h : FExec T jobs k f (fstart F₀) c) :
    (∃ i, (c.stage i).lost) ∨ f = 0 ∧ ∃ c₀, c = lift c₀ ∧ Exec T jobs k (start F₀) c₀ := by
  generalize hs : (fstart F₀ : FConfig Id n) = d at h
  induction h with
  | refl => subst hs; exact Or.inr ⟨rfl, start F₀, rfl, .refl⟩
  | @step k f failed c c' c'' h1 h2 ih =>
    obtain ⟨i, F, s, h3, rfl, h4⟩ := h2
    rcases ih hs with ⟨j, hj⟩ | ⟨rfl, c₀, rfl, h5⟩
    · refine Or.inl ⟨j, ?_⟩
      by_cases e : j = i
      · subst e; simpa using h3.lost hj
      · simpa [e] using hj
    · rcases h3.of_ordinary with h6 | ⟨rfl, s, rfl, h6⟩
      · exact Or.inl ⟨i, by simpa using h6⟩
      · have e : (⟨F, Function.update (lift c₀).stage i (.ordinary s)⟩ : FConfig Id n)
            = lift ⟨F, Function.update c₀.stage i s⟩ := lift_update
        rw [e] at h4 ⊢
        exact Or.inr ⟨rfl, _, rfl, h5.step ⟨i, F, s, h6, rfl, h4⟩⟩

theorem exec_fexec {c : Config Id n} (h : Exec T jobs k (start F₀) c) :
    FExec T jobs k 0 (fstart F₀) (lift c) := by
  generalize hs : (start F₀ : Config Id n) = d at h
  induction h with
  | refl => subst hs; exact .refl
  | @step k c c' c'' h1 h2 ih =>
    obtain ⟨i, F, s, h3, rfl, h4⟩ := h2
    exact (ih hs).step (failed := false) ⟨i, F, .ordinary s, FCall.call h3, lift_update.symm, by rw [lift_running]; exact h4⟩

theorem FExec.unfailing {c : FConfig Id n} (h : FExec T jobs k 0 (fstart F₀) c) :
    ∃ c₀, c = lift c₀ ∧ Exec T jobs k (start F₀) c₀ := by
  generalize hs : (fstart F₀ : FConfig Id n) = d at h
  generalize hf : 0 = f at h
  induction h with
  | refl => subst hs; exact ⟨start F₀, rfl, .refl⟩
  | @step k f failed c c' c'' h1 h2 ih =>
    obtain ⟨i, F, s, h3, rfl, h4⟩ := h2
    have hf0 : failed = false := by cases failed <;> simp at hf ⊢
    subst hf0
    obtain ⟨c₀, rfl, h5⟩ := ih hs (by simpa using hf)
    have h6 : ∃ s₁, s = .ordinary s₁ ∧ Call (T i) c₀.files (c₀.stage i) F s₁ := by
      generalize hb : false = b at h3
      generalize hg : (lift c₀).stage i = g at h3
      cases h3 with
      | call h =>
        have e : c₀.stage i = _ := FStage.ordinary.inj hg
        exact ⟨_, rfl, e ▸ h⟩
      | _ => first | (cases hb; done) | cases hg
    obtain ⟨s₁, rfl, h7⟩ := h6
    rw [lift_update] at h4 ⊢
    exact ⟨_, rfl, h5.step ⟨i, F, s₁, h7, rfl, h4⟩⟩

/-! ## What the files hold -/

/-- What is known of a task and its output file, which is `x`. -/
def FKnown (F₀ : Files Id) (t : Task Id) (x : Option Text) : FStage → Prop
  | .ordinary .waiting => x = F₀ t.output
  | .ordinary (.reading got) => x = F₀ t.output ∧ ∃ a y, t.input = some a ∧ F₀ a = some y ∧ got <+: y
  | .ordinary (.ready y) => x = F₀ t.output ∧ t.result F₀ = .ok y
  | .ordinary (.writing pos rest) => ∃ w, t.result F₀ = .ok (w ++ rest) ∧ w.length = pos ∧ x = some w
  | .ordinary .finished => ∃ y, t.result F₀ = .ok y ∧ x = some y
  | .ordinary .panicked => x = F₀ t.output ∨ ∃ y w, t.result F₀ = .ok y ∧ w <+: y ∧ x = some w
  | .unwinding pos rest => ∃ w lost, t.result F₀ = .ok (w ++ rest ++ lost) ∧ w.length = pos ∧ x = some w

theorem FCall.other {t : Task Id} {b : Bool} {F F' : Files Id} {s s' : FStage} (h : FCall t b F s F' s') {a : Id}
    (ha : a ≠ t.output) : F' a = F a := by
  cases h with
  | call h => cases h <;> first | rfl | exact Function.update_of_ne ha _ _
  | dropWrite _ _ => exact Function.update_of_ne ha _ _
  | _ => rfl

theorem FCall.known {t : Task Id} {b : Bool} {F F' : Files Id} {s s' : FStage} (h : FCall t b F s F' s')
    (hin : ∀ a, t.input = some a → F a = F₀ a) (hk : FKnown F₀ t (F t.output) s) :
    FKnown F₀ t (F' t.output) s' := by
  have hread : ∀ {a x got}, t.input = some a → F a = some x → x.drop got.length = [] →
      (∃ a y, t.input = some a ∧ F₀ a = some y ∧ got <+: y) → t.result F₀ = t.work got := by
    rintro a x got h1 h2 h3 ⟨a', y, k1, k2, k3⟩
    rw [hin _ h1] at h2
    rw [h1] at k1
    obtain rfl : a = a' := Option.some.inj k1
    obtain rfl : x = y := Option.some.inj (h2.symm.trans k2)
    obtain ⟨r, rfl⟩ := k3
    rw [List.drop_left] at h3
    subst h3
    rw [List.append_nil] at h2
    exact result_some h1 h2
  cases h with
  | call h =>
    cases h with
    | draw h1 h2 => exact ⟨hk, by simpa [Task.result, h1] using h2⟩
    | drawPanic h1 h2 => exact Or.inl hk
    | missing h1 h2 => exact Or.inl hk
    | «open» h1 h2 => exact ⟨hk, _, _, h1, by rw [← hin _ h1]; exact h2, List.nil_prefix⟩
    | read h1 h2 h3 h4 =>
      obtain ⟨k0, a', x', k1, k2, k3⟩ := hk
      rw [hin _ h1] at h2
      rw [h1] at k1
      obtain rfl : _ = a' := Option.some.inj k1
      obtain rfl : _ = x' := Option.some.inj (h2.symm.trans k2)
      refine ⟨k0, _, _, h1, h2, ?_⟩
      obtain ⟨t, rfl⟩ := k3
      rw [List.drop_left] at h4
      rw [h4]
      exact ⟨_, List.append_assoc _ _ _⟩
    | eof h1 h2 h3 h4 => exact ⟨hk.1, by rw [hread h1 h2 h3 hk.2, h4]⟩
    | eofPanic h1 h2 h3 h4 => exact Or.inl hk.1
    | create => exact ⟨[], by simpa using hk.2, rfl, by simp⟩
    | write h1 h2 =>
      obtain ⟨w, k1, rfl, k3⟩ := hk
      rw [h1] at k3
      obtain rfl := Option.some.inj k3
      exact ⟨_, by rw [k1, ← List.append_assoc], List.length_append, by simp [writeAt_end]⟩
    | close =>
      obtain ⟨w, k1, rfl, k3⟩ := hk
      exact ⟨w, by simpa using k1, k3⟩
  | openFails _ => exact Or.inl hk
  | readFails => exact Or.inl hk.1
  | createFails => exact Or.inl hk.1
  | writeFails _ =>
    obtain ⟨w, k1, k2, k3⟩ := hk
    exact ⟨w, _, by rw [k1, List.append_assoc], k2, k3⟩
  | dropWrite h1 h2 =>
    obtain ⟨w, l, k1, rfl, k3⟩ := hk
    rw [h1] at k3
    obtain rfl := Option.some.inj k3
    exact ⟨_, l, by rw [k1]; simp, List.length_append, by simp [writeAt_end]⟩
  | dropFails _ =>
    obtain ⟨w, l, k1, k2, k3⟩ := hk
    exact Or.inr ⟨_, w, k1, by rw [List.append_assoc]; exact List.prefix_append _ _, k3⟩
  | dropDone =>
    obtain ⟨w, l, k1, k2, k3⟩ := hk
    exact Or.inr ⟨_, w, k1, by rw [List.append_assoc]; exact List.prefix_append _ _, k3⟩

theorem FExec.inv (hio : ∀ i m a, (T i).input = some a → (T m).output ≠ a)
    (hd : Function.Injective fun i => (T i).output) {c : FConfig Id n} (h : FExec T jobs k f (fstart F₀) c) :
    (∀ a, (∀ i, (T i).output ≠ a) → c.files a = F₀ a) ∧
    ∀ i, FKnown F₀ (T i) (c.files (T i).output) (c.stage i) := by
  generalize hs : (fstart F₀ : FConfig Id n) = d at h
  induction h with
  | refl => subst hs; exact ⟨fun _ _ => rfl, fun _ => rfl⟩
  | step h1 h2 ih =>
    obtain ⟨i, F, s, h3, rfl, h4⟩ := h2
    obtain ⟨ih1, ih2⟩ := ih hs
    refine ⟨fun a ha => (h3.other (ha i).symm).trans (ih1 a ha), fun j => ?_⟩
    by_cases e : j = i
    · subst e
      simpa using h3.known (fun a ha => ih1 a fun m => hio j m a ha) (ih2 j)
    · have ho : (T j).output ≠ (T i).output := fun e' => e (hd e')
      simp only [Function.update_of_ne e]
      rw [h3.other ho]
      exact ih2 j

/-! ## Termination -/

/-- What is left to do. -/
def fleft (F₀ : Files Id) (t : Task Id) : FStage → Nat
  | .ordinary .finished => 0
  | .ordinary .panicked => 0
  | .ordinary s => left F₀ t s + 1
  | .unwinding _ rest => rest.length + 1

theorem FCall.left_lt {t : Task Id} {b : Bool} {F F' : Files Id} {s s' : FStage} (h : FCall t b F s F' s')
    (hin : ∀ a, t.input = some a → F a = F₀ a) (hk : FKnown F₀ t (F t.output) s) :
    fleft F₀ t s' < fleft F₀ t s := by
  cases h with
  | call h =>
    cases h with
    | draw h1 h2 => simp [fleft, left, Task.cost, Task.result, h1, h2]
    | drawPanic h1 h2 => simp [fleft]
    | missing h1 h2 => simp [fleft]
    | «open» h1 h2 => simp [fleft, left]
    | @read a x got piece more h1 h2 h3 h4 =>
      rw [hin _ h1] at h2
      have h5 := congrArg List.length h4
      rw [List.length_drop, List.length_append] at h5
      have h6 := List.length_pos_iff.2 h3
      simp only [fleft, left, Task.cost, h1, h2, List.length_append, Option.getD_some]
      omega
    | @eof a x got y h1 h2 h3 h4 =>
      rw [hin _ h1] at h2
      obtain ⟨k0, a', x', k1, k2, k3⟩ := hk
      rw [h1] at k1
      obtain rfl : _ = a' := Option.some.inj k1
      obtain rfl : _ = x' := Option.some.inj (h2.symm.trans k2)
      obtain ⟨t, rfl⟩ := k3
      rw [List.drop_left] at h3
      subst h3
      rw [List.append_nil] at h2
      simp only [fleft, left, Task.cost, result_some h1 h2, h4, h1, h2, Option.getD_some]
      omega
    | eofPanic => simp [fleft]
    | create => simp [fleft, left]
    | @write x pos piece more h1 h2 =>
      have h6 := List.length_pos_iff.2 h2
      simp only [fleft, left, List.length_append]
      omega
    | close => simp [fleft]
  | openFails _ => simp [fleft]
  | readFails => simp [fleft]
  | createFails => simp [fleft]
  | writeFails _ => simp only [fleft, left, List.length_append]; omega
  | dropWrite h1 h2 =>
    have h6 := List.length_pos_iff.2 h2
    simp only [fleft, List.length_append]
    omega
  | dropFails _ => simp [fleft]
  | dropDone => simp [fleft]

theorem FExec.length_le (hio : ∀ i m a, (T i).input = some a → (T m).output ≠ a)
    (hd : Function.Injective fun i => (T i).output) {c : FConfig Id n} (h : FExec T jobs k f (fstart F₀) c) :
    k + ∑ i, fleft F₀ (T i) (c.stage i) ≤ ∑ i, ((T i).cost F₀ + 6) := by
  generalize hs : (fstart F₀ : FConfig Id n) = d at h
  induction h with
  | refl => subst hs; simp [fstart, fleft, left]
  | @step k f failed c c' c'' h1 h2 ih =>
    subst hs
    have hinv := h1.inv hio hd
    obtain ⟨i, F, s, h3, rfl, h4⟩ := h2
    have key := h3.left_lt (fun a ha => hinv.1 a fun m => hio i m a ha) (hinv.2 i)
    have : ∑ j, fleft F₀ (T j) (Function.update c'.stage i s j) < ∑ j, fleft F₀ (T j) (c'.stage j) := by
      refine Finset.sum_lt_sum (fun m _ => ?_) ⟨i, Finset.mem_univ _, by simpa using key⟩
      by_cases e : m = i
      · subst e; simpa using key.le
      · simp [e]
    have := ih rfl
    simp only
    omega

theorem FExec.running {c : FConfig Id n} (h : FExec T jobs k f (fstart F₀) c) : c.running ≤ jobs := by
  generalize hs : (fstart F₀ : FConfig Id n) = d at h
  cases h with
  | refl => subst hs; simp [fstart, FConfig.running, FStage.active, Stage.active]
  | step h1 h2 => obtain ⟨i, F, s, h3, rfl, h4⟩ := h2; exact h4

/-- A failing call is possible whenever there is room for it. -/
theorem FExec.fails {c : FConfig Id n} {i : Fin n} {s : FStage} (h : FExec T jobs k f (fstart F₀) c)
    (hc : FCall (T i) true c.files (c.stage i) c.files s)
    (hs : s = .ordinary .panicked ∨ (c.stage i).active = true) :
    FExec T jobs (k + 1) (f + 1) (fstart F₀) ⟨c.files, Function.update c.stage i s⟩ := by
  refine h.step (failed := true) ⟨i, _, s, hc, rfl, ?_⟩
  refine le_trans (Finset.card_le_card fun m hm => ?_) h.running
  rw [Finset.mem_filter] at hm ⊢
  refine ⟨Finset.mem_univ _, ?_⟩
  by_cases e : m = i
  · subst e
    rcases hs with rfl | hs
    · simp [FStage.active, Stage.active] at hm
    · exact hs
  · simpa [e] using hm.2

/-- There is a next call, and one that does not fail, until the end. -/
theorem FExec.progress (hj : 1 ≤ jobs) (hio : ∀ i m a, (T i).input = some a → (T m).output ≠ a)
    (hd : Function.Injective fun i => (T i).output) {c : FConfig Id n} (h : FExec T jobs k f (fstart F₀) c)
    (hf : ¬ c.Ended) : ∃ c', FNext T jobs false c c' := by
  obtain ⟨ho, hk⟩ := h.inv hio hd
  have hup : ∀ (i : Fin n) (F : Files Id) (s : FStage), (c.stage i).active = true →
      (⟨F, Function.update c.stage i s⟩ : FConfig Id n).running ≤ jobs := by
    intro i F s hs
    refine le_trans (Finset.card_le_card fun m hm => ?_) h.running
    rw [Finset.mem_filter] at hm ⊢
    refine ⟨Finset.mem_univ _, ?_⟩
    by_cases e : m = i
    · subst e; exact hs
    · simpa [e] using hm.2
  have hin : ∀ i a, (T i).input = some a → c.files a = F₀ a := fun i a ha => ho a fun m => hio i m a ha
  by_cases ha : ∃ i, (c.stage i).active = true
  · obtain ⟨i, hi⟩ := ha
    have hk := hk i
    have hu := hup i
    cases hs : c.stage i with
    | unwinding pos rest =>
      rw [hs] at hk
      obtain ⟨w, l, k1, k2, k3⟩ := hk
      rcases rest with _ | ⟨ch, t⟩
      · exact ⟨_, i, _, _, by rw [hs]; exact .dropDone, rfl, hu _ _ hi⟩
      · exact ⟨_, i, _, _, by rw [hs]; exact .dropWrite (piece := [ch]) (more := t) k3 (by simp), rfl, hu _ _ hi⟩
    | ordinary s =>
      cases s with
      | waiting => simp [hs, FStage.active, Stage.active] at hi
      | finished => simp [hs, FStage.active, Stage.active] at hi
      | panicked => simp [hs, FStage.active, Stage.active] at hi
      | reading got =>
        rw [hs] at hk
        obtain ⟨-, a, x, k1, k2, t, rfl⟩ := hk
        rw [← hin i a k1] at k2
        rcases t with _ | ⟨ch, t⟩
        · have hd : (got ++ []).drop got.length = [] := by simp
          cases hw : (T i).work got with
          | ok y => exact ⟨_, i, _, _, by rw [hs]; exact .call (.eof k1 k2 hd hw), rfl, hu _ _ hi⟩
          | error e => exact ⟨_, i, _, _, by rw [hs]; exact .call (.eofPanic k1 k2 hd hw), rfl, hu _ _ hi⟩
        · exact ⟨_, i, _, _, by
            rw [hs]; exact .call (.read (piece := [ch]) (more := t) k1 k2 (by simp) (by simp)), rfl, hu _ _ hi⟩
      | ready y => exact ⟨_, i, _, _, by rw [hs]; exact .call .create, rfl, hu _ _ hi⟩
      | writing pos rest =>
        rw [hs] at hk
        obtain ⟨w, k1, k2, k3⟩ := hk
        rcases rest with _ | ⟨ch, t⟩
        · exact ⟨_, i, _, _, by rw [hs]; exact .call .close, rfl, hu _ _ hi⟩
        · exact ⟨_, i, _, _, by
            rw [hs]; exact .call (.write (piece := [ch]) (more := t) k3 (by simp)), rfl, hu _ _ hi⟩
  · push Not at ha
    have hw : ∃ i, c.stage i = .ordinary .waiting := by
      by_contra hw
      exact hf ⟨fun i => by simpa using ha i, fun h => absurd h hw⟩
    obtain ⟨i, hi⟩ := hw
    have hone : ∀ (F : Files Id) (s : FStage),
        (⟨F, Function.update c.stage i s⟩ : FConfig Id n).running ≤ jobs := by
      intro F s
      refine le_trans (Finset.card_le_one.2 fun m hm l hl => ?_) hj
      have : ∀ m ∈ Finset.univ.filter (fun m => (Function.update c.stage i s m).active = true), m = i := by
        intro m hm
        by_contra e
        rw [Finset.mem_filter, Function.update_of_ne e] at hm
        exact ha m hm.2
      rw [this m hm, this l hl]
    cases hp : (T i).input with
    | none =>
      cases hw : (T i).work [] with
      | ok y => exact ⟨_, i, _, _, by rw [hi]; exact .call (.draw hp hw), rfl, hone _ _⟩
      | error e => exact ⟨_, i, _, _, by rw [hi]; exact .call (.drawPanic hp hw), rfl, hone _ _⟩
    | some a =>
      cases hx : c.files a with
      | none => exact ⟨_, i, _, _, by rw [hi]; exact .call (.missing hp hx), rfl, hone _ _⟩
      | some x => exact ⟨_, i, _, _, by rw [hi]; exact .call (.open hp hx), rfl, hone _ _⟩

/-! ## Beginnings of numbers -/

theorem display_step {n : Nat} (h : 10 ≤ n) : display n = display (n / 10) ++ [Nat.digitChar (n % 10)] := by
  rw [display, Nat.toDigits_eq_if (by norm_num), if_neg (by omega)]
  rfl

/-- Without its last `d` digits, `n` is `n / 10 ^ d`. -/
theorem display_prefix : ∀ {d n : Nat}, 10 ^ d ≤ n → display (n / 10 ^ d) <+: display n
  | 0, n, _ => by simp
  | d + 1, n, h => by
    have h1 : 10 ≤ n := le_trans (by have := Nat.one_le_pow d 10 (by norm_num); rw [pow_succ]; omega) h
    have h2 : 10 ^ d ≤ n / 10 := by rw [Nat.le_div_iff_mul_le (by norm_num), ← pow_succ]; exact h
    rw [pow_succ', ← Nat.div_div_eq_div_mul, display_step h1]
    exact (display_prefix h2).trans (List.prefix_append _ _)

theorem prefix_display {n : Nat} {w : Text} (h : w <+: display n) (h0 : w ≠ []) :
    w = display n ∨ ∃ d, 10 ^ d ≤ n ∧ w = display (n / 10 ^ d) := by
  induction n using Nat.strong_induction_on with
  | _ n ih =>
    rcases Nat.lt_or_ge n 10 with hn | hn
    · rw [display, Nat.toDigits_of_lt_base hn] at h ⊢
      obtain ⟨t, ht⟩ := h
      rcases w with _ | ⟨c, w⟩
      · exact absurd rfl h0
      · simp only [List.cons_append, List.cons.injEq, List.append_eq_nil_iff] at ht
        obtain ⟨rfl, rfl, -⟩ := ht
        exact Or.inl rfl
    · rw [display_step hn, List.prefix_concat_iff] at h
      rcases h with h | h
      · exact Or.inl (by rw [display_step hn, h])
      · right
        rcases ih (n / 10) (by omega) h with h | ⟨d, h1, h2⟩
        · exact ⟨1, by simpa using hn, by simpa using h⟩
        · refine ⟨d + 1, ?_, ?_⟩
          · rw [pow_succ, ← Nat.le_div_iff_mul_le (by norm_num)]; exact h1
          · rw [pow_succ', ← Nat.div_div_eq_div_mul]; exact h2

end HLL.Evl
