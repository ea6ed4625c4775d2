import Verif.Model.Json
import Verif.Proofs.Evaluation

/-! # Reading what was written as JSON -/

namespace HLL
namespace Json

mutual
/-- What is read when a value has been written. -/
def erase : Value → Value
  | .num n => .num n
  | .unit => .unit
  | .none => .unit
  | .opaque _ => .unit
  | .some v => erase v
  | .seq l => .seq (eraseSeq l)
  | .map l => .map (eraseMap l)
def eraseSeq : List Value → List Value
  | [] => []
  | v :: l => erase v :: eraseSeq l
def eraseMap : List (String × Value) → List (String × Value)
  | [] => []
  | (k, v) :: l => (k, erase v) :: eraseMap l
end

mutual
/-- The number of levels of arrays and objects. -/
def depth : Value → Nat
  | .num _ => 0
  | .unit => 0
  | .none => 0
  | .opaque _ => 0
  | .some v => depth v
  | .seq l => depthSeq l + 1
  | .map l => depthMap l + 1
def depthSeq : List Value → Nat
  | [] => 0
  | v :: l => max (depth v) (depthSeq l)
def depthMap : List (String × Value) → Nat
  | [] => 0
  | (_, v) :: l => max (depth v) (depthMap l)
end

/-- A key that is written without escapes. -/
def KeyOk (k : String) : Prop := ∀ c ∈ k.toList, c ≠ '"' ∧ c ≠ '\\' ∧ 32 ≤ c.toNat

mutual
/-- All keys are written without escapes. -/
def KeysOk : Value → Prop
  | .num _ => True
  | .unit => True
  | .none => True
  | .opaque _ => True
  | .some v => KeysOk v
  | .seq l => KeysOkSeq l
  | .map l => KeysOkMap l
def KeysOkSeq : List Value → Prop
  | [] => True
  | v :: l => KeysOk v ∧ KeysOkSeq l
def KeysOkMap : List (String × Value) → Prop
  | [] => True
  | (k, v) :: l => KeyOk k ∧ KeysOk v ∧ KeysOkMap l
end

/-- Only white space. -/
def Blank (t : List Char) : Prop := ∀ c ∈ t, c ∈ [' ', '\n', '\t', '\r']

theorem isSpace_iff (c : Char) : isSpace c = true ↔ c ∈ [' ', '\n', '\t', '\r'] := by
  simp [isSpace, or_assoc]

theorem Blank.space {t : List Char} (h : Blank t) : ∀ c ∈ t, isSpace c = true := fun c hc => (isSpace_iff c).2 (h c hc)

/-- The formatter writes only white space. -/
structure Format.Ok (f : Format) : Prop where
  lines : ∀ d, Blank (f.line d)
  colons : Blank f.colon

theorem Format.Ok.line {f : Format} (h : f.Ok) (d : Nat) : ∀ c ∈ f.line d, isSpace c = true := (h.lines d).space
theorem Format.Ok.colon {f : Format} (h : f.Ok) : ∀ c ∈ f.colon, isSpace c = true := h.colons.space

theorem compact_ok : compact.Ok := ⟨by simp [compact, Blank], by simp [compact, Blank]⟩

theorem pretty_ok : pretty.Ok := by
  constructor
  · intro d c hc
    rcases List.mem_cons.1 hc with rfl | hc
    · simp
    · rw [List.eq_of_mem_replicate hc]; simp
  · intro c hc
    rw [List.mem_singleton.1 hc]; simp

/-! ## Steps -/

/-- Reading a text from a state. -/
abbrev reads (s : State) (t : List Char) : Option State := t.foldlM step s

theorem reads_cons (s : State) (c : Char) (t : List Char) : reads s (c :: t) = (step s c).bind fun s => reads s t := rfl

theorem reads_append (s : State) (t u : List Char) : reads s (t ++ u) = (reads s t).bind fun s => reads s u := by
  simp only [reads, List.foldlM_append]; rfl

theorem reads_skip {s : State} {w : List Char} (hw : ∀ c ∈ w, isSpace c = true)
    (hs : ∀ c, isSpace c = true → step s c = some s) (t : List Char) : reads s (w ++ t) = reads s t := by
  induction w with
  | nil => rfl
  | cons c w ih =>
    rw [List.cons_append, reads_cons, hs c (hw c (by simp)), Option.bind_some]
    exact ih fun d hd => hw d (by simp [hd])

theorem step_complete (v : Value) (o : List Open) (c : Char) : step (complete v o) c = stepAfter c (complete v o) := by
  match o with
  | [] => rfl
  | .seq _ :: _ => rfl
  | .map _ _ :: _ => rfl

theorem not_digit_of_space {c : Char} (h : isSpace c = true) : c.isDigit = false := by
  simp only [isSpace, Bool.or_eq_true, beq_iff_eq] at h
  rcases h with ((rfl | rfl) | rfl) | rfl <;> rfl

theorem step_space_value {o : List Open} {c : Char} (h : isSpace c = true) :
    step (.inside o .value) c = some (.inside o .value) := by simp [step, h]

theorem step_space_first {o : List Open} {c : Char} (h : isSpace c = true) :
    step (.inside o .first) c = some (.inside o .first) := by simp [step, h]

theorem step_space_key0 {o : List Open} {c : Char} (h : isSpace c = true) :
    step (.inside o .key0) c = some (.inside o .key0) := by simp [step, h]

theorem step_space_key1 {o : List Open} {c : Char} (h : isSpace c = true) :
    step (.inside o .key1) c = some (.inside o .key1) := by simp [step, h]

theorem step_space_seq {l : List Value} {o : List Open} {c : Char} (h : isSpace c = true) :
    step (.inside (.seq l :: o) .after) c = some (.inside (.seq l :: o) .after) := by simp [step, stepAfter, h]

theorem step_space_map {l : List (String × Value)} {k : String} {o : List Open} {c : Char} (h : isSpace c = true) :
    step (.inside (.map l k :: o) .after) c = some (.inside (.map l k :: o) .after) := by simp [step, stepAfter, h]

/-- The text does not continue a number. -/
def Stops (t : List Char) : Prop := ∃ c u, t = c :: u ∧ c.isDigit = false

theorem stops_cons {c : Char} (h : c.isDigit = false) (t : List Char) : Stops (c :: t) := ⟨c, t, rfl, h⟩

theorem stops_space {w t : List Char} (hw : ∀ c ∈ w, isSpace c = true) (ht : Stops t) : Stops (w ++ t) := by
  cases w with
  | nil => exact ht
  | cons c w => exact stops_cons (not_digit_of_space (hw c (by simp))) _

/-! ## Numbers -/

theorem digitChar_val {d : Nat} (h : d < 10) : d.digitChar.isDigit = true ∧ d.digitChar.toNat - 48 = d := by
  rw [Nat.isDigit_digitChar]
  exact ⟨by simpa using h, Nat.toNat_digitChar_sub_48_of_lt_ten h⟩

theorem isDigit_ne {c : Char} (h : c.isDigit = true) :
    isSpace c = false ∧ c ≠ '[' ∧ c ≠ '{' ∧ c ≠ 'n' ∧ c ≠ ']' := by
  refine ⟨?_, ?_, ?_, ?_, ?_⟩
  · cases hs : isSpace c with
    | false => rfl
    | true => rw [not_digit_of_space hs] at h; exact absurd h (by simp)
  all_goals rintro rfl; revert h; decide

theorem step_digit {o : List Open} {c : Char} (h : c.isDigit = true) :
    step (.inside o .value) c = some (.inside o (.num (c.toNat - 48))) := by
  obtain ⟨h1, h2, h3, h4, _⟩ := isDigit_ne h
  simp [step, stepValue, h1, h2, h3, h4, h]

theorem reads_digits (o : List Open) (n : Nat) :
    reads (.inside o .value) (Nat.toDigits 10 n) = some (.inside o (.num n)) := by
  induction n using Nat.strong_induction_on with
  | _ n ih =>
    rw [Nat.toDigits_eq_if (by norm_num)]
    split
    · rename_i hn
      obtain ⟨h1, h2⟩ := digitChar_val hn
      rw [reads_cons, step_digit h1, h2]
      rfl
    · rename_i hn
      obtain ⟨h1, h2⟩ := digitChar_val (Nat.mod_lt n (by norm_num : 10 > 0))
      rw [reads_append, ih (n / 10) (by omega), Option.bind_some, reads_cons]
      have h0 : n / 10 ≠ 0 := by omega
      simp only [step, h1, if_true, h0, if_false, h2, Option.bind_some]
      rw [Nat.div_add_mod]
      rfl

/-! ## Values -/

theorem head_text (f : Format) (d : Nat) (v : Value) :
    ∃ c t, text f d v = c :: t ∧ isSpace c = false ∧ c ≠ ']' := by
  match v with
  | .num n =>
    cases h : Nat.toDigits 10 n with
    | nil => exact absurd h Nat.toDigits_ne_nil
    | cons c t =>
      have := Nat.isDigit_of_mem_toDigits (b := 10) (n := n) (c := c) (by norm_num) (by norm_num) (by rw [h]; simp)
      exact ⟨c, t, by rw [text, h], (isDigit_ne this).1, (isDigit_ne this).2.2.2.2⟩
  | .unit => exact ⟨_, _, rfl, rfl, by decide⟩
  | .none => exact ⟨_, _, rfl, rfl, by decide⟩
  | .opaque _ => exact ⟨_, _, rfl, rfl, by decide⟩
  | .some v =>
    obtain ⟨c, t, h⟩ := head_text f d v
    exact ⟨c, t, by rw [text]; exact h.1, h.2⟩
  | .seq [] => exact ⟨_, _, by rw [text], rfl, by decide⟩
  | .seq (v :: l) => exact ⟨_, _, by rw [text], rfl, by decide⟩
  | .map [] => exact ⟨_, _, by rw [text], rfl, by decide⟩
  | .map ((k, v) :: l) => exact ⟨_, _, by rw [text], rfl, by decide⟩

/-- After `[` a value is read as elsewhere. -/
theorem reads_first (f : Format) (d : Nat) (v : Value) (o : List Open) (t : List Char) :
    reads (.inside o .first) (text f d v ++ t) = reads (.inside o .value) (text f d v ++ t) := by
  obtain ⟨c, u, e, h1, h2⟩ := head_text f d v
  rw [e, List.cons_append, reads_cons, reads_cons]
  congr 1
  simp [step, h1, h2]

theorem reads_null (o : List Open) (t : List Char) :
    reads (.inside o .value) (nullText ++ t) = reads (complete .unit o) t := rfl

theorem reads_key_chars {o : List Open} (l : List Char) {k : List Char}
    (hk : ∀ c ∈ k, c ≠ '"' ∧ c ≠ '\\' ∧ 32 ≤ c.toNat) (t : List Char) :
    reads (.inside o (.key l)) (k ++ t) = reads (.inside o (.key (k.reverse ++ l))) t := by
  induction k generalizing l with
  | nil => rfl
  | cons c k ih =>
    obtain ⟨h1, h2, h3⟩ := hk c (by simp)
    rw [List.cons_append, reads_cons]
    have : step (.inside o (.key l)) c = some (.inside o (.key (c :: l))) := by
      simp [step, h1, h2, h3]
    rw [this, Option.bind_some, ih _ fun d hd => hk d (by simp [hd])]
    simp

/-- A key with its colon. -/
theorem reads_key {f : Format} (hf : f.Ok) {es : List (String × Value)} {k0 k : String} {o : List Open} (hk : KeyOk k)
    (t : List Char) :
    reads (.inside (.map es k0 :: o) (.key [])) (k.toList ++ '"' :: ':' :: (f.colon ++ t)) =
      reads (.inside (.map es k :: o) .value) t := by
  rw [reads_key_chars [] hk, reads_cons]
  have h1 : step (.inside (.map es k0 :: o) (.key (k.toList.reverse ++ []))) '"' =
      some (.inside (.map es k :: o) .colon) := by simp [step]
  rw [h1, Option.bind_some, reads_cons]
  have h2 : step (.inside (.map es k :: o) .colon) ':' = some (.inside (.map es k :: o) .value) := rfl
  rw [h2, Option.bind_some, reads_skip hf.colon fun c hc => step_space_value hc]

theorem complete_seq (v : Value) (l : List Value) (o : List Open) :
    complete v (.seq l :: o) = .inside (.seq (v :: l) :: o) .after := rfl

theorem complete_map (v : Value) (l : List (String × Value)) (k : String) (o : List Open) :
    complete v (.map l k :: o) = .inside (.map ((k, v) :: l) k :: o) .after := rfl

mutual
/-- A written value is read. -/
theorem reads_text {f : Format} (hf : f.Ok) (d : Nat) : (v : Value) → KeysOk v → (o : List Open) →
    depth v + o.length ≤ 127 → (t : List Char) → Stops t →
    reads (.inside o .value) (text f d v ++ t) = reads (complete (erase v) o) t
  | .num n, _, o, _, t, ht => by
    obtain ⟨c, u, rfl, hc⟩ := ht
    rw [text, reads_append, reads_digits, Option.bind_some, reads_cons, reads_cons, erase, step_complete]
    simp [step, hc]
  | .unit, _, o, _, t, _ => by rw [text, erase, reads_null]
  | .none, _, o, _, t, _ => by rw [text, erase, reads_null]
  | .opaque _, _, o, _, t, _ => by rw [text, erase, reads_null]
  | .some v, hk, o, hd, t, ht => by
    rw [text, erase]
    exact reads_text hf d v (by simpa [KeysOk] using hk) o (by simpa [depth] using hd) t ht
  | .seq [], _, o, hd, t, _ => by
    rw [depth] at hd
    have h1 : step (.inside o .value) '[' = some (.inside (.seq [] :: o) .first) := by
      simp [step, stepValue, isSpace, enter, show o.length < 127 by omega]
    rw [text, erase, eraseSeq, List.cons_append, List.cons_append, List.nil_append, reads_cons, h1, Option.bind_some,
      reads_cons]
    rfl
  | .seq (v :: l), hk, o, hd, t, _ => by
    rw [KeysOk, KeysOkSeq] at hk
    rw [depth, depthSeq] at hd
    have h1 : step (.inside o .value) '[' = some (.inside (.seq [] :: o) .first) := by
      simp [step, stepValue, isSpace, enter, show o.length < 127 by omega]
    have hend : Stops (f.line d ++ ']' :: t) := stops_space (hf.line d) (stops_cons rfl _)
    have hs : Stops (textSeq f (d + 1) l ++ (f.line d ++ ']' :: t)) := by
      cases l with
      | nil => rw [textSeq]; exact hend
      | cons w l => rw [textSeq]; exact stops_cons rfl _
    simp only [text, List.cons_append, List.append_assoc, List.nil_append]
    rw [reads_cons, h1, Option.bind_some, reads_skip (hf.line _) fun c hc => step_space_first hc, reads_first,
      reads_text hf (d + 1) v hk.1 (.seq [] :: o) (by rw [List.length_cons]; omega) _ hs, complete_seq,
      reads_seq hf (d + 1) l hk.2 [erase v] o (by omega) _ hend,
      reads_skip (hf.line _) fun c hc => step_space_seq hc, reads_cons]
    have h2 : step (.inside (.seq ((eraseSeq l).reverse ++ [erase v]) :: o) .after) ']' =
        some (complete (erase (.seq (v :: l))) o) := by
      simp [step, stepAfter, isSpace, erase, eraseSeq]
    rw [h2, Option.bind_some]
  | .map [], _, o, hd, t, _ => by
    rw [depth] at hd
    have h1 : step (.inside o .value) '{' = some (.inside (.map [] "" :: o) .key0) := by
      simp [step, stepValue, isSpace, enter, show o.length < 127 by omega]
    rw [text, erase, eraseMap, List.cons_append, List.cons_append, List.nil_append, reads_cons, h1, Option.bind_some,
      reads_cons]
    rfl
  | .map ((k, v) :: l), hk, o, hd, t, _ => by
    rw [KeysOk, KeysOkMap] at hk
    rw [depth, depthMap] at hd
    have h1 : step (.inside o .value) '{' = some (.inside (.map [] "" :: o) .key0) := by
      simp [step, stepValue, isSpace, enter, show o.length < 127 by omega]
    have h3 : step (.inside (.map [] "" :: o) .key0) '"' = some (.inside (.map [] "" :: o) (.key [])) := rfl
    have hend : Stops (f.line d ++ '}' :: t) := stops_space (hf.line d) (stops_cons rfl _)
    have hs : Stops (textMap f (d + 1) l ++ (f.line d ++ '}' :: t)) := by
      cases l with
      | nil => rw [textMap]; exact hend
      | cons w l => obtain ⟨k', w⟩ := w; rw [textMap]; exact stops_cons rfl _
    simp only [text, List.cons_append, List.append_assoc, List.nil_append]
    rw [reads_cons, h1, Option.bind_some, reads_skip (hf.line _) fun c hc => step_space_key0 hc, reads_cons, h3,
      Option.bind_some, reads_key hf hk.1,
      reads_text hf (d + 1) v hk.2.1 (.map [] k :: o) (by rw [List.length_cons]; omega) _ hs, complete_map,
      reads_map hf (d + 1) l hk.2.2 [(k, erase v)] k o (by omega) _ hend]
    rw [reads_skip (hf.line _) fun c hc => step_space_map hc, reads_cons]
    have h2 : ∀ k', step (.inside (.map ((eraseMap l).reverse ++ [(k, erase v)]) k' :: o) .after) '}' =
        some (complete (erase (.map ((k, v) :: l))) o) := by
      intro k'
      simp [step, stepAfter, isSpace, erase, eraseMap]
    rw [h2, Option.bind_some]
/-- The further elements of an array. -/
theorem reads_seq {f : Format} (hf : f.Ok) (d : Nat) : (l : List Value) → KeysOkSeq l → (acc : List Value) →
    (o : List Open) → depthSeq l + o.length ≤ 126 → (t : List Char) → Stops t →
    reads (.inside (.seq acc :: o) .after) (textSeq f d l ++ t) =
      reads (.inside (.seq ((eraseSeq l).reverse ++ acc) :: o) .after) t
  | [], _, acc, o, _, t, _ => by simp [textSeq, eraseSeq]
  | v :: l, hk, acc, o, hd, t, ht => by
    rw [KeysOkSeq] at hk
    rw [depthSeq] at hd
    have h1 : step (.inside (.seq acc :: o) .after) ',' = some (.inside (.seq acc :: o) .value) := by
      simp [step, stepAfter, isSpace]
    have hs : Stops (textSeq f d l ++ t) := by
      cases l with
      | nil => rw [textSeq]; exact ht
      | cons w l => rw [textSeq]; exact stops_cons rfl _
    simp only [textSeq, List.cons_append, List.append_assoc]
    rw [reads_cons, h1, Option.bind_some, reads_skip (hf.line _) fun c hc => step_space_value hc,
      reads_text hf d v hk.1 (.seq acc :: o) (by rw [List.length_cons]; omega) _ hs, complete_seq,
      reads_seq hf d l hk.2 (erase v :: acc) o (by omega) t ht]
    simp [eraseSeq]
/-- The further entries of an object. -/
theorem reads_map {f : Format} (hf : f.Ok) (d : Nat) : (l : List (String × Value)) → KeysOkMap l →
    (acc : List (String × Value)) → (k0 : String) → (o : List Open) → depthMap l + o.length ≤ 126 → (t : List Char) →
    Stops t →
    reads (.inside (.map acc k0 :: o) .after) (textMap f d l ++ t) =
      reads (.inside (.map ((eraseMap l).reverse ++ acc) ((l.map Prod.fst).getLastD k0) :: o) .after) t
  | [], _, acc, k0, o, _, t, _ => by simp [textMap, eraseMap]
  | (k, v) :: l, hk, acc, k0, o, hd, t, ht => by
    rw [KeysOkMap] at hk
    rw [depthMap] at hd
    have h1 : step (.inside (.map acc k0 :: o) .after) ',' = some (.inside (.map acc k0 :: o) .key1) := by
      simp [step, stepAfter, isSpace]
    have h3 : step (.inside (.map acc k0 :: o) .key1) '"' = some (.inside (.map acc k0 :: o) (.key [])) := rfl
    have hs : Stops (textMap f d l ++ t) := by
      cases l with
      | nil => rw [textMap]; exact ht
      | cons w l => obtain ⟨k', w⟩ := w; rw [textMap]; exact stops_cons rfl _
    simp only [textMap, List.cons_append, List.append_assoc]
    rw [reads_cons, h1, Option.bind_some, reads_skip (hf.line _) fun c hc => step_space_key1 hc, reads_cons, h3,
      Option.bind_some, reads_key hf hk.1,
      reads_text hf d v hk.2.1 (.map acc k :: o) (by rw [List.length_cons]; omega) _ hs, complete_map,
      reads_map hf d l hk.2.2 ((k, erase v) :: acc) k o (by omega) t ht]
    rw [eraseMap, List.map_cons, List.getLastD_cons, List.reverse_cons, List.append_assoc, List.singleton_append]
end

/-- **Reading what was written.** -/
theorem parse_text {f : Format} (hf : f.Ok) {v : Value} (hk : KeysOk v) (hd : depth v ≤ 127) {w w' : List Char}
    (hw : Blank w) (hw' : Blank w') : parse (w ++ text f 0 v ++ w') = some (erase v) := by
  replace hw := hw.space
  replace hw' := hw'.space
  have h : reads (.inside [] .value) (w ++ text f 0 v ++ w' ++ ['\n']) = some (.done (erase v)) := by
    rw [List.append_assoc, List.append_assoc, reads_skip hw fun c hc => step_space_value hc,
      reads_text hf 0 v hk [] (by simpa using hd) _ (stops_space hw' (stops_cons rfl _)),
      reads_skip hw' fun c hc => by simp [complete, step, stepAfter, hc]]
    rfl
  unfold parse
  rw [show List.foldlM step (.inside [] .value) (w ++ text f 0 v ++ w' ++ ['\n']) = _ from h]

/-! ## Texts cut short or continued -/

/-- The reader is inside an array or object, or has finished. -/
def Bound : State → Prop
  | .inside o _ => o ≠ []
  | .done _ => True

theorem bound_complete (v : Value) (o : List Open) : Bound (complete v o) := by
  match o with
  | [] => trivial
  | .seq _ :: _ => simp [complete, Bound]
  | .map _ _ :: _ => simp [complete, Bound]

theorem bound_enter {x : Open} {m : Mode} {o : List Open} {s : State} (h : enter x m o = some s) : Bound s := by
  unfold enter at h
  split at h
  · cases h; simp [Bound]
  · cases h

theorem bound_stepValue {o : List Open} (ho : o ≠ []) {c : Char} {s : State} (h : stepValue o c = some s) : Bound s := by
  unfold stepValue at h
  split_ifs at h
  · exact bound_enter h
  · exact bound_enter h
  · cases h; exact ho
  · cases h; exact ho

theorem bound_stepAfter {c : Char} {s s' : State} (h : stepAfter c s = some s') : Bound s' := by
  unfold stepAfter at h
  split at h
  · split_ifs at h; cases h; trivial
  · split_ifs at h
    · cases h; simp [Bound]
    · cases h; simp [Bound]
    · cases h; exact bound_complete _ _
  · split_ifs at h
    · cases h; simp [Bound]
    · cases h; simp [Bound]
    · cases h; exact bound_complete _ _
  · cases h

theorem bound_step {s s' : State} {c : Char} (hs : Bound s) (h : step s c = some s') : Bound s' := by
  unfold step at h
  split at h
  · exact bound_stepAfter h
  · exact bound_stepAfter h
  · split_ifs at h
    · cases h; exact hs
    · exact bound_stepValue hs h
  · split_ifs at h
    · cases h; exact hs
    · split at h
      · cases h; exact bound_complete _ _
      · cases h
    · exact bound_stepValue hs h
  · split_ifs at h
    · cases h; exact hs
    · cases h; exact hs
    · split at h
      · cases h; exact bound_complete _ _
      · cases h
  · split_ifs at h
    · cases h; exact hs
    · cases h; exact hs
  · split_ifs at h
    · split at h
      · cases h; simp [Bound]
      · cases h
    · cases h; exact hs
  · split_ifs at h
    · cases h; exact hs
    · cases h; exact hs
  · split_ifs at h
    · cases h; exact hs
    · exact bound_stepAfter h
  · split at h
    · cases h
    · split_ifs at h; cases h; exact bound_complete _ _
    · split_ifs at h; cases h; exact hs

theorem bound_reads {t : List Char} {s s' : State} (hs : Bound s) (h : reads s t = some s') : Bound s' := by
  induction t generalizing s with
  | nil => cases h; exact hs
  | cons c t ih =>
    rw [reads_cons] at h
    obtain ⟨u, h1, h2⟩ := Option.bind_eq_some_iff.1 h
    exact ih (bound_step hs h1) h2

/-- After the value only white space is read. -/
theorem reads_done {v : Value} {t : List Char} {s : State} (h : reads (.done v) t = some s) :
    ∀ c ∈ t, isSpace c = true := by
  induction t with
  | nil => simp
  | cons c t ih =>
    rw [reads_cons, show step (.done v) c = if isSpace c then some (.done v) else none from rfl] at h
    split at h
    · rename_i hc
      intro d hd
      rcases List.mem_cons.1 hd with rfl | hd
      · exact hc
      · exact ih h d hd
    · cases h

/-- At the end of the text a reader inside an array or object has not finished. -/
theorem step_newline {s : State} (hs : Bound s) {v : Value} (h : step s '\n' = some (.done v)) : s = .done v := by
  have hspace : isSpace '\n' = true := rfl
  match s with
  | .done w => simpa [step, stepAfter, hspace] using h
  | .inside [] _ => exact absurd rfl hs
  | .inside (.seq l :: o) .after => simp [step, stepAfter, hspace] at h
  | .inside (.map l k :: o) .after => simp [step, stepAfter, hspace] at h
  | .inside (_ :: _) .value => simp [step, hspace] at h
  | .inside (_ :: _) .first => simp [step, hspace] at h
  | .inside (_ :: _) .key0 => simp [step, hspace] at h
  | .inside (_ :: _) .key1 => simp [step, hspace] at h
  | .inside (_ :: _) .colon => simp [step, hspace] at h
  | .inside (_ :: _) (.key l) => simp [step] at h
  | .inside (.seq l :: o) (.num n) => simp [step, complete, stepAfter, hspace] at h
  | .inside (.map l k :: o) (.num n) => simp [step, complete, stepAfter, hspace] at h
  | .inside (x :: _) (.null l) =>
    simp only [step] at h
    split at h
    · cases h
    · split_ifs at h
      cases x <;> simp [complete] at h
    · split_ifs at h
      cases h

theorem text_map_head (f : Format) (l : List (String × Value)) : ∃ t, text f 0 (.map l) = '{' :: t := by
  match l with
  | [] => exact ⟨_, by rw [text]⟩
  | (k, v) :: l => exact ⟨_, by rw [text]⟩

theorem text_map_last (f : Format) (l : List (String × Value)) : ∃ t, text f 0 (.map l) = t ++ ['}'] := by
  match l with
  | [] => exact ⟨['{'], by rw [text]; rfl⟩
  | (k, v) :: l => rw [text, ← List.cons_append]; exact ⟨_, rfl⟩

/-- The reader after a text beginning with `{`. -/
theorem bound_of_brace {t : List Char} {s : State} (h : reads (.inside [] .value) ('{' :: t) = some s) : Bound s := by
  rw [reads_cons, show step (.inside [] .value) '{' = some (.inside [.map [] ""] .key0) from rfl, Option.bind_some] at h
  exact bound_reads (by simp [Bound]) h

theorem parse_eq_some {t : List Char} {v : Value} (h : parse t = some v) :
    reads (.inside [] .value) (t ++ ['\n']) = some (.done v) := by
  unfold parse at h
  split at h
  · rename_i w hw; cases h; exact hw
  · cases h

theorem reads_brace_of_parse {t : List Char} {v : Value} (h : parse ('{' :: t) = some v) :
    reads (.inside [] .value) ('{' :: t) = some (.done v) := by
  have h := parse_eq_some h
  rw [reads_append] at h
  obtain ⟨s, h1, h2⟩ := Option.bind_eq_some_iff.1 h
  rw [reads_cons] at h2
  obtain ⟨s', h3, h4⟩ := Option.bind_eq_some_iff.1 h2
  cases h4
  rw [h1, step_newline (bound_of_brace h1) h3]

theorem reads_text_map {f : Format} (hf : f.Ok) {l : List (String × Value)} (hk : KeysOk (.map l))
    (hd : depth (.map l) ≤ 127) :
    reads (.inside [] .value) (text f 0 (.map l)) = some (.done (erase (.map l))) := by
  obtain ⟨t, ht⟩ := text_map_head f l
  have := parse_text hf hk hd (w := []) (w' := []) (by simp [Blank]) (by simp [Blank])
  rw [List.nil_append, List.append_nil, ht] at this
  rw [ht]
  exact reads_brace_of_parse this

/-- **A text that was cut short** is rejected, if it is an object. -/
theorem parse_prefix {f : Format} (hf : f.Ok) {l : List (String × Value)} (hk : KeysOk (.map l)) (hd : depth (.map l) ≤ 127)
    {t u : List Char} (ht : text f 0 (.map l) = t ++ u) (hu : u ≠ []) : parse t = none := by
  cases hp : parse t with
  | none => rfl
  | some v =>
    exfalso
    obtain ⟨w, hw⟩ := text_map_head f l
    cases t with
    | nil => cases hp
    | cons c t =>
      have hc : c = '{' := by rw [hw, List.cons_append] at ht; exact (List.cons.inj ht).1.symm
      subst hc
      have h1 := reads_brace_of_parse hp
      have h2 := reads_text_map hf hk hd
      rw [ht, reads_append, h1, Option.bind_some] at h2
      obtain ⟨x, hx⟩ := text_map_last f l
      have h3 : u.getLast hu = '}' := by
        have h4 : (text f 0 (.map l)).getLast? = some '}' := by rw [hx]; simp
        rw [ht, List.getLast?_append, List.getLast?_eq_some_getLast hu] at h4
        simpa using h4
      have := reads_done h2 _ (List.getLast_mem hu)
      rw [h3] at this
      exact absurd this (by decide)

/-- **A text that is continued** is rejected, unless only white space follows. -/
theorem parse_continued {f : Format} (hf : f.Ok) {l : List (String × Value)} (hk : KeysOk (.map l))
    (hd : depth (.map l) ≤ 127) {t : List Char} (hs : ¬ Blank t) :
    parse (text f 0 (.map l) ++ t) = none := by
  cases hp : parse (text f 0 (.map l) ++ t) with
  | none => rfl
  | some v =>
    exfalso
    have h := parse_eq_some hp
    rw [List.append_assoc, reads_append, reads_text_map hf hk hd, Option.bind_some] at h
    exact hs fun c hc => (isSpace_iff c).1 (reads_done h c (by simp [hc]))

end Json
end HLL
