import Verif.Proofs.Failing
import Verif.Props.Command

/-!
# C91: the evaluation program when reading and writing can fail
-/

namespace HLL
open Spec F64 Exps Evl Exp Finset

variable {cfg : Cfg} {ln : F64 → F64} {p n jobs k f : Nat} {Id : Type} [DecidableEq Id] {F : Files Id}
  {mean median std : List F64 → F64}

/-- **C91**: tasks that write different files and read none of the files written, any number of threads, any
interleaving, and any of the calls failing.  At any time no other file has changed; the output file of a task that is
finished holds what the task computes from the files as they were; any other output file is as it was or holds a
beginning of that text. -/
theorem C91_tasks {T : Fin n → Evl.Task Id} (hio : ∀ i j a, (T i).input = some a → (T j).output ≠ a)
    (hd : ∀ i j, (T i).output = (T j).output → i = j) {c : FConfig Id n} (h : FExec T jobs k f (fstart F) c) :
    (∀ a, (∀ i, (T i).output ≠ a) → c.files a = F a) ∧
    ∀ i,
      (c.stage i = .ordinary .finished → ∃ y, (T i).result F = .ok y ∧ c.files (T i).output = some y) ∧
      (c.files (T i).output = F (T i).output ∨
        ∃ y w, (T i).result F = .ok y ∧ w <+: y ∧ c.files (T i).output = some w) := by
  obtain ⟨h1, h2⟩ := h.inv hio fun i j e => hd i j e
  refine ⟨h1, fun i => ⟨fun e => by simpa [e, FKnown] using h2 i, ?_⟩⟩
  have h3 := h2 i
  cases hs : c.stage i with
  | unwinding pos rest =>
    rw [hs] at h3
    obtain ⟨w, l, k1, k2, k3⟩ := h3
    exact Or.inr ⟨_, w, k1, by rw [List.append_assoc]; exact List.prefix_append _ _, k3⟩
  | ordinary s =>
    rw [hs] at h3
    cases s with
    | waiting => exact Or.inl h3
    | reading got => exact Or.inl h3.1
    | ready y => exact Or.inl h3.1
    | writing pos rest =>
      obtain ⟨w, k1, k2, k3⟩ := h3
      exact Or.inr ⟨_, w, k1, List.prefix_append _ _, k3⟩
    | finished =>
      obtain ⟨y, k1, k2⟩ := h3
      exact Or.inr ⟨_, y, k1, List.prefix_rfl, k2⟩
    | panicked => exact h3

/-- **C91**, the exit status: when the loop has ended and any call failed, whichever, the status is 101.  It is 0
exactly if all tasks are finished. -/
theorem C91_status {T : Fin n → Evl.Task Id} {c : FConfig Id n} (h : FExec T jobs k f (fstart F) c) (he : c.Ended) :
    (0 < f → c.status = 101) ∧ (c.status = 0 ↔ ∀ i, c.stage i = .ordinary .finished) := by
  have hs : c.status = 101 ↔ ∃ i, c.stage i = .ordinary .panicked := by
    unfold FConfig.status
    split <;> rename_i h <;> simp [h]
  have hs' : c.status = 0 ↔ ¬ ∃ i, c.stage i = .ordinary .panicked := by
    unfold FConfig.status
    split <;> rename_i h <;> simp [h]
  constructor
  · intro hf
    rcases h.ordinary with ⟨i, hi⟩ | ⟨rfl, -⟩
    · refine hs.2 ⟨i, ?_⟩
      have ha := he.1 i
      cases hc : c.stage i with
      | unwinding pos rest => rw [hc] at ha; cases ha
      | ordinary s => rw [hc] at hi; cases s <;> first | rfl | exact hi.elim
    · omega
  · rw [hs']
    constructor
    · intro hn i
      have ha := he.1 i
      have hw := mt he.2 hn
      cases hc : c.stage i with
      | unwinding pos rest => rw [hc] at ha; cases ha
      | ordinary s =>
        rw [hc] at ha
        cases s with
        | waiting => exact absurd ⟨i, hc⟩ hw
        | reading _ => cases ha
        | ready _ => cases ha
        | writing _ _ => cases ha
        | finished => rfl
        | panicked => exact absurd ⟨i, hc⟩ hn
    · rintro ha ⟨i, hi⟩
      rw [ha i] at hi
      cases hi

/-- **C91**: executions in which no call fails are the executions of C89, where calls cannot fail. -/
theorem C91_no_failure {T : Fin n → Evl.Task Id} (c : FConfig Id n) : FExec T jobs k 0 (fstart F) c ↔
    ∃ c₀ : Config Id n, Exec T jobs k (start F) c₀ ∧ c.files = c₀.files ∧ ∀ i, c.stage i = .ordinary (c₀.stage i) := by
  constructor
  · intro h
    obtain ⟨c₀, rfl, h0⟩ := h.unfailing
    exact ⟨c₀, h0, rfl, fun _ => rfl⟩
  · rintro ⟨c₀, h, h1, h2⟩
    have e : c = lift c₀ := by
      obtain ⟨G, s⟩ := c
      simp only [lift, FConfig.mk.injEq]
      exact ⟨h1, funext h2⟩
    rw [e]
    exact exec_fexec h

/-- **C91**: at any time, the next call of a task can fail, whether it opens the input file, reads from it, creates the
output file, writes to it, or writes to it while unwinding.  The files are then as they were, and the task has panicked
or, if its output file is open and it was not unwinding yet, unwinds. -/
theorem C91_any_call {T : Fin n → Evl.Task Id} {c : FConfig Id n} (h : FExec T jobs k f (fstart F) c) (i : Fin n) :
    (((c.stage i = .ordinary .waiting ∧ (T i).input ≠ none) ∨ (∃ x, c.stage i = .ordinary (.reading x)) ∨
        (∃ y, c.stage i = .ordinary (.ready y)) ∨ ∃ pos rest, rest ≠ [] ∧ c.stage i = .unwinding pos rest) →
      FExec T jobs (k + 1) (f + 1) (fstart F) ⟨c.files, Function.update c.stage i (.ordinary .panicked)⟩) ∧
    ∀ pos kept lost, kept ++ lost ≠ [] → c.stage i = .ordinary (.writing pos (kept ++ lost)) →
      FExec T jobs (k + 1) (f + 1) (fstart F) ⟨c.files, Function.update c.stage i (.unwinding pos kept)⟩ := by
  constructor
  · intro hs
    refine h.fails (i := i) ?_ (Or.inl rfl)
    rcases hs with ⟨e, hi⟩ | ⟨x, e⟩ | ⟨y, e⟩ | ⟨pos, rest, hr, e⟩
    · obtain ⟨a, ha⟩ := Option.ne_none_iff_exists'.mp hi
      rw [e]; exact .openFails ha
    · rw [e]; exact .readFails
    · rw [e]; exact .createFails
    · rw [e]; exact .dropFails hr
  · intro pos kept lost hne e
    refine h.fails (i := i) ?_ (Or.inr (by rw [e]; rfl))
    rw [e]; exact .writeFails hne

/-- **C91**, success: if calls can fail, the runs with exit status 0 are those in which no call fails and all tasks
finish.  So what C89 and C90 say of them holds whenever `subprocess.run` of the script does not raise an exception. -/
theorem C91_success (plan : Option (R Plan)) (F F' : Files Text) : Succeeds plan F F' ↔ Completes plan F F' := by
  refine or_congr_right ⟨?_, ?_⟩
  · rintro ⟨jobs, n, T, k, f, c, h1, h2, h3, h4, rfl⟩
    have hall := (C91_status h2 h3).2.1 h4
    rcases h2.ordinary with ⟨i, hi⟩ | ⟨-, c₀, rfl, h5⟩
    · rw [hall i] at hi; exact hi.elim
    · exact ⟨jobs, n, T, k, c₀, h1, h5, fun i => by simpa [lift] using hall i, rfl⟩
  · rintro ⟨jobs, n, T, k, c, h1, h2, h3, rfl⟩
    have he : (lift c).Ended := by
      refine ⟨fun i => by simp [lift, h3 i, FStage.active, Stage.active], ?_⟩
      rintro ⟨i, hi⟩
      simp [lift, h3 i] at hi
    exact ⟨jobs, n, T, k, 0, lift c, h1, exec_fexec h2, he,
      (C91_status (exec_fexec h2) he).2.2 fun i => by simp [lift, h3 i], rfl⟩

/-- **C91**, the end: until the loop has ended there is a next call (and one that does not fail), and there are at
most as many calls as characters to read and to write, and six more for each task.  So every execution ends. -/
theorem C91_ends {T : Fin n → Evl.Task Id} (hj : 1 ≤ jobs) (hio : ∀ i j a, (T i).input = some a → (T j).output ≠ a)
    (hd : ∀ i j, (T i).output = (T j).output → i = j) {c : FConfig Id n} (h : FExec T jobs k f (fstart F) c) :
    (¬ c.Ended → ∃ c', FExec T jobs (k + 1) f (fstart F) c') ∧ k ≤ ∑ i, ((T i).cost F + 6) := by
  have hd' : Function.Injective fun i => (T i).output := fun i j e => hd i j e
  refine ⟨fun he => ?_, ?_⟩
  · obtain ⟨c', hc⟩ := h.progress hj hio hd' he
    exact ⟨c', h.step hc⟩
  · have := h.length_le hio hd'
    omega

/-- **C91**, what is left behind: any beginning of the text, not all of it, can be what the file holds after a single
failed call, the exit status being 101. -/
theorem C91_left_behind {t : Evl.Task Id} {w y : Text} (hy : t.result F = .ok y)
    (hw : w <+: y) (hne : w ≠ y) :
    ∃ (k : Nat) (c : FConfig Id 1), FExec (fun _ => t) 1 k 1 (fstart F) c ∧ c.Ended ∧ c.status = 101 ∧
      c.files = Function.update F t.output (some w) := by
  have hrun : ∀ (c : FConfig Id 1), c.running ≤ 1 := fun c => by
    have := Finset.card_filter_le (univ : Finset (Fin 1)) fun i => (c.stage i).active = true
    simpa [FConfig.running] using this
  have step : ∀ {k f : Nat} {b : Bool} {G G' : Files Id} {s s' : FStage},
      FExec (fun _ : Fin 1 => t) 1 k f (fstart F) ⟨G, fun _ => s⟩ → FCall t b G s G' s' →
      FExec (fun _ : Fin 1 => t) 1 (k + 1) (f + b.toNat) (fstart F) ⟨G', fun _ => s'⟩ := by
    intro k f b G G' s s' h1 h2
    refine h1.step ⟨0, G', s', h2, ?_, hrun _⟩
    simp only [FConfig.mk.injEq, true_and]
    funext i
    rw [Subsingleton.elim i 0, Function.update_self]
  have hready : ∃ k, FExec (fun _ : Fin 1 => t) 1 k 0 (fstart F) ⟨F, fun _ => .ordinary (.ready y)⟩ := by
    have h0 : FExec (fun _ : Fin 1 => t) 1 0 0 (fstart F) ⟨F, fun _ => .ordinary .waiting⟩ := .refl
    cases hin : t.input with
    | none =>
      have h1 : t.work [] = .ok y := by simpa [Task.result, hin] using hy
      exact ⟨_, step h0 (.call (.draw hin h1))⟩
    | some a =>
      cases hF : F a with
      | none => simp [Task.result, hin, hF] at hy
      | some x =>
        rw [result_some hin hF] at hy
        have h1 := step h0 (.call (.open hin hF))
        by_cases hx : x = []
        · subst hx
          exact ⟨_, step h1 (.call (.eof hin hF (by simp) hy))⟩
        · have h2 := step h1 (.call (.read (piece := x) (more := []) hin hF hx (by simp)))
          exact ⟨_, step h2 (.call (.eof hin hF (by simp) hy))⟩
  obtain ⟨k, h1⟩ := hready
  obtain ⟨rest, rfl⟩ := hw
  have hr : rest ≠ [] := fun e => hne (by simp [e])
  have h2 := step h1 (.call .create)
  have h3 : ∃ k, FExec (fun _ : Fin 1 => t) 1 k 0 (fstart F)
      ⟨Function.update F t.output (some w), fun _ => .ordinary (.writing w.length rest)⟩ := by
    by_cases hw : w = []
    · subst hw; exact ⟨_, h2⟩
    · have h3 := step h2 (.call (.write (x := []) (piece := w) (more := rest) (by simp) hw))
      have e : writeAt [] 0 w = w := by simpa using writeAt_end [] w
      simp only [e, Function.update_idem, Nat.zero_add] at h3
      exact ⟨_, h3⟩
  obtain ⟨k, h3⟩ := h3
  have h4 := step (step h3 (.writeFails (kept := []) (lost := rest) (by simpa using hr))) .dropDone
  refine ⟨_, _, h4, ⟨fun _ => rfl, fun _ => ⟨0, rfl⟩⟩, ?_, rfl⟩
  unfold FConfig.status
  rw [if_pos ⟨0, rfl⟩]

/-! ## Files that were cut are read without complaint -/

namespace Evl

theorem generate_append (a b : List Nat) : generate (a ++ b) = generate a ++ generate b := by
  simp [generate, save]

theorem prefix_generate {x : Text} : ∀ {ns : List Nat}, x <+: generate ns →
    (∃ m ≤ ns.length, x = generate (ns.take m)) ∨
      ∃ m v d, ns[m]? = some v ∧ (d = 0 ∨ 10 ^ d ≤ v) ∧ x = generate (ns.take m) ++ display (v / 10 ^ d)
  | [], h => Or.inl ⟨0, le_rfl, by simpa [generate, save] using h⟩
  | v :: ns, h => by
    have e : generate (v :: ns) = display v ++ ('\n' :: generate ns) := by simp [generate, save]
    rw [e] at h
    rcases List.prefix_or_prefix_of_prefix h (List.prefix_append (display v) _) with h1 | ⟨x', rfl⟩
    · by_cases hx : x = []
      · exact Or.inl ⟨0, by simp, by simp [hx, generate, save]⟩
      · rcases prefix_display h1 hx with h2 | ⟨d, h2, h3⟩
        · exact Or.inr ⟨0, v, 0, rfl, .inl rfl, by simp [h2, generate, save]⟩
        · exact Or.inr ⟨0, v, d, rfl, .inr h2, by simp [h3, generate, save]⟩
    · rw [List.prefix_append_right_inj] at h
      rcases x' with _ | ⟨c, x'⟩
      · exact Or.inr ⟨0, v, 0, rfl, .inl rfl, by simp [generate, save]⟩
      · rw [List.cons_prefix_cons] at h
        obtain ⟨rfl, h⟩ := h
        have e' : ∀ l, generate (v :: l) = display v ++ '\n' :: generate l := fun l => by simp [generate, save]
        rcases prefix_generate h with ⟨m, h1, rfl⟩ | ⟨m, u, d, h1, h2, rfl⟩
        · exact Or.inl ⟨m + 1, by simpa using h1, by rw [List.take_succ_cons, e']⟩
        · exact Or.inr ⟨m + 1, u, d, by simpa using h1, h2, by rw [List.take_succ_cons, e']; simp⟩

theorem load_cut {w : Nat} {l : List Nat} {v : Nat} (hl : ∀ n ∈ l, n < 2 ^ w) (hv : v < 2 ^ w) :
    load w (generate l ++ display v) = .ok (l ++ [v]) := by
  have key : ∀ l : List Nat, linesFrom [] (generate l ++ display v) = (l ++ [v]).map display := by
    intro l
    induction l with
    | nil =>
      rw [show generate [] = [] from rfl, List.nil_append, linesFrom_last _ _ (display_no (by decide))]
      simp [display_ne_nil]
    | cons u l ih =>
      have e : generate (u :: l) ++ display v = display u ++ '\n' :: (generate l ++ display v) := by
        simp [generate, save]
      rw [e, linesFrom_line _ _ _ (display_no (by decide)), ih, List.nil_append, stripCR_of (display_no (by decide))]
      rfl
  rw [load, key, mapM_parse, if_pos]
  intro n hn
  rw [List.mem_append, List.mem_singleton] at hn
  rcases hn with hn | rfl
  · exact hl n hn
  · exact hv

end Evl

/-- **C91**, cut files of hashes: `evl run` loads every beginning `x` of a file that `evl gen` writes.  It gets the
numbers of the first lines and, if the file was cut in a line, the next number divided by a power of ten. -/
theorem C91_cut_hashes {w : Nat} {ns : List Nat} (h : ∀ v ∈ ns, v < 2 ^ w) {x : Text}
    (hx : x <+: (String.join (ns.map fun v => s!"{v}\n")).toList) :
    ∃ m, load w x = .ok (ns.take m) ∨
      ∃ v d, ns[m]? = some v ∧ (d = 0 ∨ 10 ^ d ≤ v) ∧ load w x = .ok (ns.take m ++ [v / 10 ^ d]) := by
  rw [← generate_eq] at hx
  have ht : ∀ m, ∀ v ∈ ns.take m, v < 2 ^ w := fun m v hv => h v (List.mem_of_mem_take hv)
  rcases prefix_generate hx with ⟨m, -, rfl⟩ | ⟨m, v, d, h1, h2, rfl⟩
  · exact ⟨m, .inl (by rw [load_generate, if_pos (ht m)])⟩
  · refine ⟨m, .inr ⟨v, d, h1, h2, load_cut (ht m) ?_⟩⟩
    exact lt_of_le_of_lt (Nat.div_le_self _ _) (h v (List.mem_of_getElem? h1))

/-- **C91**: and each of these numbers is what it gets from some beginning of the file. -/
theorem C91_cut_number {w : Nat} {l l' : List Nat} {v d : Nat} (h : ∀ n ∈ l, n < 2 ^ w) (hv : v < 2 ^ w)
    (hd : 10 ^ d ≤ v) :
    let x := (String.join (l.map fun v => s!"{v}\n") ++ s!"{v / 10 ^ d}").toList
    x <+: (String.join ((l ++ v :: l').map fun v => s!"{v}\n")).toList ∧ load w x = .ok (l ++ [v / 10 ^ d]) := by
  intro x
  have hx : x = generate l ++ display (v / 10 ^ d) := by
    simp only [x, String.toList_append, ← generate_eq, display_eq]
  rw [hx, ← generate_eq]
  refine ⟨?_, load_cut h (lt_of_le_of_lt (Nat.div_le_self _ _) hv)⟩
  rw [generate_append, List.prefix_append_right_inj]
  have e : generate (v :: l') = display v ++ '\n' :: generate l' := by simp [generate, save]
  rw [e]
  exact (display_prefix hd).trans (List.prefix_append _ _)

namespace Exp

theorem readline_last : ∀ (l : Text), '\n' ∉ l → readline l = (l, [])
  | [], _ => rfl
  | c :: l, h => by
    rw [List.mem_cons, not_or] at h
    rw [readline, if_neg (fun e => h.1 e.symm), readline_last l h.2]

theorem lineValues_cut (t e : Nat) : lineValues (displayEstimation (t, e)) = .ok [ofNat t, ofNat e] := by
  have h1 : ' ' ∉ display t := display_no (by decide)
  have h2 : ' ' ∉ display e := display_no (by decide)
  have hs : (displayEstimation (t, e)).splitOn ' ' = [display t, display e] := by
    rw [displayEstimation, List.append_assoc, List.singleton_append,
      List.splitOn_append_cons_self_of_not_mem h1, List.splitOn_eq_singleton h2]
  have k : ∀ n, float (display n) = .ok (ofNat n) := fun n =>
    float_of_strip (strip_digits fun c hc => display_isDigit hc)
  rw [lineValues, hs, List.mapM_cons, k, List.mapM_cons, k]
  rfl

/-- One row of the statistics. -/
theorem statisticsLoop_row {ι : Type} {G : List ι} (hG : G ≠ []) {file rest : ι → Text} {v : ι → Nat} {t : Nat}
    (h1 : 0 < t) (h2 : t ≤ 2 ^ 53)
    (h : ∀ g ∈ G, ∃ line, readline (file g) = (line, rest g) ∧ line ≠ [] ∧ lineValues line = .ok [ofNat t, ofNat (v g)])
    (fuel : Nat) :
    statisticsLoop (fuel + 1) (G.map file) =
      (statisticsLoop fuel (G.map rest)).map fun r => ((t : ℤ), G.map fun g => relErr (v g) t) :: r := by
  have e1 : ((G.map file).map fun fp => (readline fp).1).filter (fun line => line ≠ []) =
      G.map fun g => (readline (file g)).1 := by
    rw [List.map_map, List.filter_eq_self.2]
    · rfl
    · intro a ha
      simp only [List.mem_map, Function.comp_apply] at ha
      obtain ⟨g, hg, rfl⟩ := ha
      obtain ⟨line, k1, k2, -⟩ := h g hg
      simpa [k1] using k2
  have e2 : ((G.map file).map fun fp => (readline fp).2) = G.map rest := by
    rw [List.map_map]
    exact List.map_congr_left fun g hg => by
      obtain ⟨line, k1, -⟩ := h g hg
      simp [k1]
  have e3 : (G.map fun g => (readline (file g)).1).mapM lineValues = .ok (G.map fun g => [ofNat t, ofNat (v g)]) := by
    rw [List.mapM_map, mapM_ok (g := fun g => [ofNat t, ofNat (v g)])]
    intro g hg
    obtain ⟨line, k1, -, k3⟩ := h g hg
    simpa [k1] using k3
  have e4 : (G.map fun g => [ofNat t, ofNat (v g)]).mapM relativeError = .ok (G.map fun g => relErr (v g) t) := by
    rw [List.mapM_map, mapM_ok (g := fun g => relErr (v g) t)]
    intro g _
    exact relativeError_eq h1 h2
  have e5 : item ((G.map fun g => [ofNat t, ofNat (v g)]).headD []) 0 = .ok (ofNat t) := by
    cases G with
    | nil => exact absurd rfl hG
    | cons e F => rfl
  have e6 : (G.map fun g => (readline (file g)).1) ≠ [] := by simpa using hG
  rw [statisticsLoop, e1, e2, if_neg e6, e3]
  simp only [bind, Except.bind, e4, e5, int_ofNat h2]
  cases statisticsLoop fuel (G.map rest) <;> rfl

/-- A file that has been read to its end does not matter. -/
theorem statisticsLoop_nil (P Q : List Text) : ∀ fuel,
    statisticsLoop fuel (P ++ [] :: Q) = statisticsLoop fuel (P ++ Q)
  | 0 => rfl
  | fuel + 1 => by
    have e1 : ((P ++ [] :: Q).map fun fp => (readline fp).1).filter (fun line => line ≠ []) =
        ((P ++ Q).map fun fp => (readline fp).1).filter (fun line => line ≠ []) := by
      simp [readline]
    have e2 : ((P ++ [] :: Q).map fun fp => (readline fp).2) =
        (P.map fun fp => (readline fp).2) ++ [] :: Q.map fun fp => (readline fp).2 := by simp [readline]
    rw [statisticsLoop, statisticsLoop, e1, e2, statisticsLoop_nil _ _ fuel, ← List.map_append]

/-- What is left of the file of `e` if it is cut in the line of `t`. -/
def cutFile (ts : List Nat) (t d : Nat) (e : Nat → Nat) : Text :=
  estimates ts e ++ displayEstimation (t, e t / 10 ^ d)

theorem no_newline (a b : Nat) : '\n' ∉ displayEstimation (a, b) := by
  simp only [displayEstimation, List.mem_append, not_or]
  exact ⟨⟨display_no (by decide), by decide⟩, display_no (by decide)⟩

theorem statisticsLoop_cut {A B : List (Nat → Nat)} {e : Nat → Nat} {t d : Nat} {us : List Nat} :
    ∀ (ts : List Nat) (fuel : Nat), ts.length + 1 < fuel → (A ++ B ≠ [] → ts.length + 1 + us.length < fuel) →
      (∀ u ∈ ts ++ t :: us, 0 < u ∧ u ≤ 2 ^ 53) →
      statisticsLoop fuel (A.map (estimates (ts ++ t :: us)) ++ cutFile ts t d e :: B.map (estimates (ts ++ t :: us))) =
        .ok ((ts.map fun u : Nat => ((u : ℤ), (A ++ e :: B).map fun e => relErr (e u) u)) ++
          ((t : ℤ), (A.map fun e => relErr (e t) t) ++ relErr (e t / 10 ^ d) t :: B.map fun e => relErr (e t) t) ::
          (if A ++ B = [] then [] else us).map fun u : Nat => ((u : ℤ), (A ++ B).map fun e => relErr (e u) u))
  | ts, 0, h, _, _ => absurd h (by omega)
  | [], fuel + 1, hl, hl', ht => by
    obtain ⟨h1, h2⟩ := ht t (by simp)
    let G : List (Bool × (Nat → Nat)) := A.map (Prod.mk false) ++ (true, e) :: B.map (Prod.mk false)
    have key := statisticsLoop_row (G := G) (by simp [G]) (t := t) (v := fun g => if g.1 then g.2 t / 10 ^ d else g.2 t)
      (file := fun g => if g.1 then cutFile [] t d g.2 else estimates (t :: us) g.2)
      (rest := fun g => if g.1 then [] else estimates us g.2) h1 h2 (by
        rintro ⟨b, g⟩ -
        cases b
        · exact ⟨_, by simpa using readline_estimates t us g, by simp, by simpa using lineValues_eq t (g t)⟩
        · exact ⟨displayEstimation (t, g t / 10 ^ d), by
            simpa [cutFile, estimates_nil] using readline_last _ (no_newline _ _),
            by simp [displayEstimation], by simpa using lineValues_cut t (g t / 10 ^ d)⟩) fuel
    simp only [G, List.map_append, List.map_cons, List.map_map, Function.comp_def, Bool.false_eq_true, if_false,
      if_true] at key
    rw [List.nil_append, key, statisticsLoop_nil, ← List.map_append]
    by_cases hAB : A ++ B = []
    · rw [if_pos hAB, hAB]
      obtain ⟨rfl, rfl⟩ := List.append_eq_nil_iff.1 hAB
      cases fuel <;> rfl
    · rw [if_neg hAB, statisticsLoop_eq hAB us fuel (by have := hl' hAB; simp only [List.length_nil] at this; omega) fun u hu => ht u (by simp [hu])]
      simp [Except.map]
  | u :: ts, fuel + 1, hl, hl', ht => by
    obtain ⟨h1, h2⟩ := ht u (by simp)
    have ih := statisticsLoop_cut (A := A) (B := B) (e := e) (t := t) (d := d) (us := us) ts fuel
      (by simp only [List.length_cons] at hl; omega)
      (fun h => by have := hl' h; simp only [List.length_cons] at this; omega) fun x hx => ht x (by
        rw [List.cons_append]; exact List.mem_cons_of_mem _ hx)
    let G : List (Bool × (Nat → Nat)) := A.map (Prod.mk false) ++ (true, e) :: B.map (Prod.mk false)
    have key := statisticsLoop_row (G := G) (by simp [G]) (t := u) (v := fun g => g.2 u)
      (file := fun g => if g.1 then cutFile (u :: ts) t d g.2 else estimates (u :: (ts ++ t :: us)) g.2)
      (rest := fun g => if g.1 then cutFile ts t d g.2 else estimates (ts ++ t :: us) g.2) h1 h2 (by
        rintro ⟨b, g⟩ -
        cases b
        · exact ⟨_, by simpa using readline_estimates u _ g, by simp, by simpa using lineValues_eq u (g u)⟩
        · refine ⟨displayEstimation (u, g u) ++ ['\n'], ?_, by simp, by simpa using lineValues_eq u (g u)⟩
          have e : cutFile (u :: ts) t d g = displayEstimation (u, g u) ++ '\n' :: cutFile ts t d g := by
            simp [cutFile, estimates, save]
          simp only [if_true, e]
          exact readline_line _ _ (no_newline _ _)) fuel
    simp only [G, List.map_append, List.map_cons, List.map_map, Function.comp_def, Bool.false_eq_true, if_false,
      if_true] at key
    rw [List.cons_append, key, ih]
    simp [Except.map]

end Exp

/-- **C91**, cut files of estimates: if a file of results is cut in the number of the line of `t`, the script computes
statistics all the same.  In the row of `t` it takes the estimate to be `e t` divided by a power of ten, and the
following rows are those of the other files (`A` and `B`); without other files they are missing. -/
theorem C91_cut_results (mean median std : List F64 → F64) (A B : List (Nat → Nat)) (e : Nat → Nat)
    {ts us : List Nat} {t d : Nat} (ht : ∀ u ∈ ts ++ t :: us, 0 < u ∧ u ≤ 2 ^ 52) (hd : 10 ^ d ≤ e t) :
    let whole := fun e : Nat → Nat => (String.join ((ts ++ t :: us).map fun u => s!"{u} {e u}\n")).toList
    let cut := (String.join (ts.map fun u => s!"{u} {e u}\n") ++ s!"{t} {e t / 10 ^ d}").toList
    cut <+: whole e ∧ cut ≠ whole e ∧
    ∃ err : Nat → Nat → F64,
      (∀ x u : Nat, x < 2 ^ 64 → 0 < u → u ≤ 2 ^ 52 →
        ∃ q : ℚ, err x u = fin q ∧ |q - |(x : ℚ) - u| / u| ≤ |(x : ℚ) - u| / u / 2 ^ 50) ∧
      let rows := (ts.map fun u => (u, (A ++ e :: B).map fun e => err (e u) u)) ++
        (t, (A.map fun e => err (e t) t) ++ err (e t / 10 ^ d) t :: B.map fun e => err (e t) t) ::
        (if A ++ B = [] then [] else us).map fun u => (u, (A ++ B).map fun e => err (e u) u)
      calculateStatistics mean median std (A.map whole ++ cut :: B.map whole) =
        .ok (rows.map fun r => (r.1 : ℤ), rows.map fun r => mean r.2, rows.map fun r => median r.2,
          rows.map fun r => std r.2) := by
  intro whole cut
  have hw : whole = estimates (ts ++ t :: us) := by funext e; exact estimates_eq _ _
  have hc : cut = cutFile ts t d e := by
    simp only [cut, String.toList_append, estimates_eq, cutFile, displayEstimation, display_eq]
    rfl
  rw [hw, hc]
  have hp : estimates (ts ++ t :: us) e = estimates ts e ++ (display t ++ ' ' :: (display (e t) ++ '\n' :: estimates us e)) := by
    simp [estimates, save, displayEstimation]
  obtain ⟨r, hr⟩ := display_prefix hd
  refine ⟨⟨r ++ '\n' :: estimates us e, ?_⟩, ?_, relErr, fun x u h1 h2 h3 => relErr_close h1 h2 h3, ?_⟩
  · rw [hp, ← hr]
    simp [cutFile, displayEstimation]
  · intro h
    have h := congrArg List.length h
    rw [hp, ← hr] at h
    simp [cutFile, displayEstimation] at h
  · intro rows
    have hsum : ∀ (L : List Text) (x : Text), x ∈ L → x.length ≤ (L.map List.length).sum := fun L x hx =>
      List.single_le_sum (by simp) _ (List.mem_map_of_mem hx)
    have hcut : ts.length + 1 ≤ (cutFile ts t d e).length := by
      have := length_estimates e ts
      simp only [cutFile, displayEstimation, List.length_append, List.length_singleton]
      omega
    have hl : ts.length + 1 < ((A.map (estimates (ts ++ t :: us)) ++ cutFile ts t d e ::
        B.map (estimates (ts ++ t :: us))).map List.length).sum + 1 :=
      Nat.lt_succ_of_le (hcut.trans (hsum _ _ (by simp)))
    have hl' : A ++ B ≠ [] → ts.length + 1 + us.length < ((A.map (estimates (ts ++ t :: us)) ++ cutFile ts t d e ::
        B.map (estimates (ts ++ t :: us))).map List.length).sum + 1 := by
      intro hAB
      obtain ⟨g, hg⟩ := List.exists_mem_of_ne_nil _ hAB
      refine Nat.lt_succ_of_le (le_trans ?_ (hsum _ (estimates (ts ++ t :: us) g) ?_))
      · have := length_estimates g (ts ++ t :: us)
        simp only [List.length_append, List.length_cons] at this
        omega
      · rcases List.mem_append.1 hg with hg | hg
        · exact List.mem_append_left _ (List.mem_map_of_mem hg)
        · exact List.mem_append_right _ (List.mem_cons_of_mem _ (List.mem_map_of_mem hg))
    rw [calculateStatistics, statisticsLoop_cut ts _ hl hl' fun u hu => ⟨(ht u hu).1, (ht u hu).2.trans (by norm_num)⟩]
    simp [rows, bind, Except.bind, List.map_map, Function.comp_def, pure, Except.pure]

/-- **C91**, the first experiment from beginning to end where calls can fail: if the exit status of both programs is 0,
the statistics are those of C90. -/
theorem C91_plus_hashes (hcfg : cfg.usizeBits = 64) (c32 : Serde.Codec U32) (c64 : Serde.Codec U64) (env env' : Env)
    (he : 1 ≤ env.cpus) (he' : 1 ≤ env'.cpus) {j j' count runs : Nat} (hj : j < 2 ^ 64) (hj' : j' < 2 ^ 64)
    (hc : count ≤ 2 ^ 52) (hr : 1 ≤ runs) (hr' : runs < 2 ^ 64) (h1 : 4 ≤ p) (h2 : p ≤ 18) {inp out : Text}
    (hi0 : inp ≠ []) (hiv : inp.head? ≠ some '-') (hil : inp.getLast? ≠ some '/') (ho0 : out ≠ [])
    (hov : out.head? ≠ some '-') (hol : out.getLast? ≠ some '/') (hne : inp ≠ out) {F₀ : Files Text}
    (hgi : Globbed F₀ inp []) (hgo : Globbed F₀ out []) :
    let prepare := main cfg ln c32 c64 env (prepareCommand (j : ℤ) "64".toList (count : ℤ) (runs : ℤ) inp)
    let evl := fun L => main cfg ln c32 c64 env' (runHashesCommand (j' : ℤ) "hllp".toList (p : ℤ) out L)
    ∀ F₁ L, Succeeds prepare F₀ F₁ → Globbed F₁ inp L →
      ∀ F₂ L', Succeeds (evl L) F₁ F₂ → Globbed F₂ out L' →
        ∃ (rs : List Nat) (x : Nat → Nat → ℚ), rs.Perm (List.range runs) ∧
          L' = rs.map (fun r => out ++ '/' :: s!"est-p{p}-hashes-s64-r{r}.dat".toList) ∧
          calculateStatistics mean median std (L'.map fun f => (F₂ f).getD []) =
            .ok (((List.range count).map (· + 1)).map fun t : Nat => (t : ℤ),
              ((List.range count).map (· + 1)).map fun t => mean (rs.map fun r => fin (x r t)),
              ((List.range count).map (· + 1)).map fun t => median (rs.map fun r => fin (x r t)),
              ((List.range count).map (· + 1)).map fun t => std (rs.map fun r => fin (x r t))) ∧
          ∀ r < runs, ∀ t, 1 ≤ t → t ≤ count → ∀ e : Nat,
            e = truncU64 (plusCount ln (Plus.biasOf cfg.search) p ((Finset.range t).image fun i =>
              (env.draw64 r i).toNat)) →
            |x r t - |(e : ℚ) - t| / t| ≤ |(e : ℚ) - t| / t / 2 ^ 50 := by
  intro prepare evl F₁ L h3 h4 F₂ L' h5 h6
  rw [C91_success] at h3 h5
  exact ((C90_plus_hashes (mean := mean) (median := median) (std := std) (ln := ln) hcfg c32 c64 env env' he he' hj hj' hc hr hr' h1 h2 hi0 hiv hil ho0 hov hol hne hgi hgo).2 F₁ L h3 h4).2 F₂ L' h5 h6

/-! ## Concrete cases -/

/-- A disk is full after five characters: the program ends with status 101, and what is left can be loaded. -/
example : ∃ (k : Nat) (c : FConfig Text 1),
    FExec (fun _ => genTask id "32".toList "out".toList [123, 4567] 0) 1 k 1 (fstart fun _ => none) c ∧ c.Ended ∧
    c.status = 101 ∧ c.files "out/hashes-s32-r0.dat".toList = some "123\n45".toList ∧
    load 32 "123\n45".toList = .ok [123, 45] := by
  obtain ⟨k, c, h1, h2, h3, h4⟩ := C91_left_behind (t := genTask id "32".toList "out".toList [123, 4567] 0)
    (F := fun _ => none) (w := "123\n45".toList) (y := "123\n4567\n".toList) (by decide +kernel) (by decide +kernel)
    (by decide +kernel)
  refine ⟨k, c, h1, h2, h3, ?_, by decide +kernel⟩
  rw [h4]
  exact Function.update_self (β := fun _ => Option Text) _ _ _

/-- The same file by `C91_cut_number`. -/
example : ∃ x : Text, x <+: (String.join ([123, 4567].map fun v => s!"{v}\n")).toList ∧ load 32 x = .ok [123, 45] :=
  ⟨_, C91_cut_number (l := [123]) (l' := []) (v := 4567) (d := 2) (by simp) (by norm_num) (by norm_num)⟩

/-- The hypotheses of `C91_tasks` and `C91_ends`. -/
example : let T := fun r : Fin 3 => genTask id "32".toList "out".toList [r.val, 7] r
    (∀ i j a, (T i).input = some a → (T j).output ≠ a) ∧ (∀ i j, (T i).output = (T j).output → i = j) ∧
    (T 1).result (fun _ => none) = .ok "1\n7\n".toList := by
  refine ⟨by simp [genTask], by decide +kernel, by decide +kernel⟩

/-- Three estimates of three files, one of which is cut in the second: 2 is estimated as 1 instead of 12. -/
example : calculateStatistics (fun l => (l.headD nan)) (fun l => (l.headD nan)) (fun l => (l.headD nan))
    ["1 1\n2 1".toList, "1 1\n2 2\n3 3\n".toList, "1 1\n2 2\n3 3\n".toList] =
      .ok ([1, 2, 3], [fin 0, fin (1 / 2), fin 0], [fin 0, fin (1 / 2), fin 0], [fin 0, fin (1 / 2), fin 0]) ∧
    "1 1\n2 1".toList <+: "1 1\n2 12\n3 3\n".toList := by
  constructor <;> decide +kernel

end HLL
