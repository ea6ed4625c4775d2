import Verif.Props.Experiment
import Verif.Props.Parallel

/-!
# Files with gaps in the statistics
-/

namespace HLL
open Spec F64 Evl Exp

namespace Exp

theorem mem_dropWhile {α : Type} {p : α → Bool} {c : α} (hc : p c = false) :
    ∀ {l : List α}, c ∈ l → c ∈ l.dropWhile p
  | a :: l, h => by
    rw [List.dropWhile_cons]
    split
    · rename_i ha
      rcases List.mem_cons.1 h with rfl | h
      · rw [hc] at ha; cases ha
      · exact mem_dropWhile hc h
    · exact h

theorem mem_strip {c : Char} {s : Text} (hc : c.isWhitespace = false) (h : c ∈ s) : c ∈ strip s := by
  rw [strip, List.mem_reverse]
  exact mem_dropWhile hc (List.mem_reverse.2 (mem_dropWhile hc h))

theorem float_zero {s : Text} (h : '\x00' ∈ s) : float s = .error .ValueError := by
  have hm := mem_strip (c := '\x00') (by decide) h
  rw [float]
  split
  · rfl
  · rename_i c cs e
    rw [e] at hm
    rw [if_neg]
    intro hall
    have := List.all_eq_true.1 hall _ hm
    revert this
    decide

theorem mem_intercalate {α : Type} {s c : α} (hc : c ≠ s) : ∀ {L : List (List α)}, c ∈ List.intercalate [s] L →
    ∃ l ∈ L, c ∈ l
  | [], h => by simp [List.intercalate] at h
  | [l], h => ⟨l, by simp, by simpa [List.intercalate] using h⟩
  | l :: l' :: L, h => by
    have e : List.intercalate [s] (l :: l' :: L) = l ++ [s] ++ List.intercalate [s] (l' :: L) := by
      simp [List.intercalate, List.intersperse]
    rw [e, List.mem_append, List.mem_append] at h
    rcases h with (h | h) | h
    · exact ⟨l, by simp, h⟩
    · exact absurd (by simpa using h) hc
    · obtain ⟨k, hk, h⟩ := mem_intercalate hc h
      exact ⟨k, by simp only [List.mem_cons] at hk ⊢; exact .inr hk, h⟩

theorem mapM_fails {α β : Type} {f : α → Except PyError β} : ∀ {l : List α} {x : α}, x ∈ l → (∃ e, f x = .error e) →
    ∃ e, l.mapM f = .error e
  | a :: l, x, hx, ⟨e, he⟩ => by
    rw [List.mapM_cons]
    cases ha : f a with
    | error e' => exact ⟨e', rfl⟩
    | ok b =>
      rcases List.mem_cons.1 hx with rfl | hx
      · rw [he] at ha; cases ha
      · obtain ⟨e', h'⟩ := mapM_fails hx ⟨e, he⟩
        exact ⟨e', by rw [h']; rfl⟩

theorem lineValues_zero {line : Text} (h : '\x00' ∈ line) : ∃ e, lineValues line = .error e := by
  have h' := h
  rw [← List.intercalate_splitOn ' ' (xs := line)] at h'
  obtain ⟨l, hl, hm⟩ := mem_intercalate (by decide) h'
  exact mapM_fails hl ⟨_, float_zero hm⟩

theorem readline_append : ∀ x : Text, (readline x).1 ++ (readline x).2 = x
  | [] => rfl
  | c :: cs => by
    rw [readline]
    split
    · rename_i h; rw [h]; rfl
    · simp [readline_append cs]

theorem readline_ne_nil {x : Text} (h : x ≠ []) : (readline x).1 ≠ [] := by
  cases x with
  | nil => exact absurd rfl h
  | cons c cs => rw [readline]; split <;> simp

theorem sum_readline {files : List Text} {x : Text} (hx : x ∈ files) (h0 : x ≠ []) :
    ((files.map fun fp => (readline fp).2).map List.length).sum < (files.map List.length).sum := by
  rw [List.map_map]
  refine List.sum_lt_sum _ _ (fun y _ => ?_) ⟨x, hx, ?_⟩
  · have := congrArg List.length (readline_append y)
    rw [List.length_append] at this
    simp only [Function.comp]
    omega
  · have := congrArg List.length (readline_append x)
    rw [List.length_append] at this
    have := List.length_pos_iff.2 (readline_ne_nil h0)
    simp only [Function.comp]
    omega

theorem statisticsLoop_zero : ∀ (fuel : Nat) (files : List Text), (files.map List.length).sum < fuel →
    (∃ x ∈ files, '\x00' ∈ x) → ∃ e, statisticsLoop fuel files = .error e
  | 0, _, h, _ => by omega
  | fuel + 1, files, h, ⟨x, hx, h0⟩ => by
    have hne : x ≠ [] := by rintro rfl; simp at h0
    have hmem : (readline x).1 ∈ (files.map fun fp => (readline fp).1).filter fun line => line ≠ [] :=
      List.mem_filter.2 ⟨List.mem_map_of_mem hx, by simpa using readline_ne_nil hne⟩
    rw [statisticsLoop]
    rw [if_neg (List.ne_nil_of_mem hmem)]
    generalize hL : ((files.map fun fp => (readline fp).1).filter fun line => line ≠ []) = L at *
    rw [← readline_append x, List.mem_append] at h0
    rcases h0 with h0 | h0
    · obtain ⟨e, he⟩ := mapM_fails hmem (lineValues_zero h0)
      exact ⟨e, by rw [he]; rfl⟩
    · obtain ⟨e, he⟩ := statisticsLoop_zero fuel (files.map fun fp => (readline fp).2)
        (by have := sum_readline hx hne; omega) ⟨_, List.mem_map_of_mem hx, h0⟩
      rw [he]
      cases h1 : L.mapM lineValues with
      | error e' => exact ⟨e', rfl⟩
      | ok values =>
        cases h2 : values.mapM relativeError with
        | error e' => exact ⟨e', by simp only [bind, Except.bind, h2]⟩
        | ok errors =>
          cases h3 : item (values.headD []) 0 with
          | error e' => exact ⟨e', by simp only [bind, Except.bind, h2, h3]⟩
          | ok first =>
            cases h4 : Exp.int first with
            | error e' => exact ⟨e', by simp only [bind, Except.bind, h2, h3, h4]⟩
            | ok c => exact ⟨e, by simp only [bind, Except.bind, h2, h3, h4]⟩

end Exp

/-- **C89**: the script notices the gaps.  If a byte 0 is anywhere in one of the files of results, `calculate_statistics`
raises an exception. -/
theorem C89_gap_noticed (mean median std : List F64 → F64) {files : List Text} (h : ∃ x ∈ files, '\x00' ∈ x) :
    ∃ e, calculateStatistics mean median std files = .error e := by
  obtain ⟨e, he⟩ := statisticsLoop_zero _ files (Nat.lt_succ_self _) h
  exact ⟨e, by rw [calculateStatistics, he]; rfl⟩

/-- The file of `C89_zeros` beside a good one. -/
example (mean median std : List F64 → F64) :
    ∃ e, calculateStatistics mean median std ["1 1\n2 2\n".toList, "1 1\n\x00\x00\x00\x003 3\n".toList] = .error e :=
  C89_gap_noticed mean median std ⟨"1 1\n\x00\x00\x00\x003 3\n".toList, List.mem_cons_of_mem _ (List.mem_singleton.2 rfl), by decide⟩

end HLL
