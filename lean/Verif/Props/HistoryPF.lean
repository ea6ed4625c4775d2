import Verif.Props.HistoryPlus

/-!
# Properties of `HyperLogLogPF` over all histories

`outputs api ords ops` are the results of the program `ops` (`Model/History.lean`);
`later api ords pre post` the results of `post` run after `pre` (`Props/Defs.lean`);
`contents 32 16 pre` the meanings (builder, precision, set of 32-bit hashes) of all sketches after `pre`
(`SpecHistory.lean`).  `ln` is an arbitrary function, `c` the builder's serialisation, `ords` the
iteration orders of hash sets at each call.
-/

namespace HLL
open Spec

variable {I : Type} {cfg cfg' : Cfg} {ln : F64 → F64} {c c' : Serde.Codec I}
  {ords ords' : Nat → IterOrder × IterOrder} {pre pre' post ops : List (Op I)} {i j : Nat}

/-- A program used to show that hypotheses can be met: two sketches with different
builders, insertions, a merge, a count, a clone, a failed creation. -/
def demoPF : List (Op Nat) :=
  [.new 4 (fun v => BitVec.ofNat 64 v), .new 4 (fun v => BitVec.ofNat 64 (v * 11400714819323198485)),
   .insert .insert 0 7, .insert .insertAny 1 9, .insert .add 1 (2 ^ 63), .merge 0 1, .count 0,
   .clone 0, .insert .insert 2 8, .new 17 (fun _ => 0), .new 16 (fun _ => 5), .merge 0 3]

example : Supported Cfg.debug64 (noCodec Nat) demoPF := supported64 rfl _ (by simp [demoPF])
/-- 32-bit targets, with reloads. -/
example : Supported { usizeBits := 32, overflowChecks := false, constLoop := true } ⟨fun _ => .opaque 0, fun _ => some fun _ => 3⟩
    ([.new 12 (fun _ => 3), .insert .add 0 1, .reload 0, .count 1] : List (Op Nat)) :=
  ⟨Or.inr ⟨by decide, by simp⟩, fun _ p b h => by
    simp at h; obtain ⟨rfl, rfl⟩ := h; rfl⟩

/-- **Refinement.** Every program gets exactly the results that the set machine predicts; the
estimate is `pfCount`, a function of the precision and the set of hashes. -/
theorem pf_refines (h : Supported cfg c ops) :
    outputs (PF.api cfg ln c) ords ops =
      .ok (expected 32 16 (pfCount ln) ops) :=
  PF.implements cfg ln c ords ops h

/-- **C04.** No call panics: the program runs to its end and every call returns. -/
theorem C04_pf_no_panic (h : Supported cfg c ops) :
    ∃ os, outputs (PF.api cfg ln c) ords ops = .ok os ∧ os.length = ops.length :=
  ⟨_, pf_refines h, length_expectedFrom _ _ _ _ _⟩

/-- **C06.** `count` depends only on the precision and the set of hashes: two sketches, possibly of
different programs on different targets, with equal precision and equal sets return the same
estimate. -/
theorem C06_pf_count_depends_only_on_set (h : Supported cfg c pre) (h' : Supported cfg' c' pre')
    {s s' : Abs I} (hs : (contents 32 16 pre)[i]? = some s)
    (hs' : (contents 32 16 pre')[j]? = some s') (hp : s.p = s'.p) (hS : s.S = s'.S) :
    ∃ x, later (PF.api cfg ln c) ords pre [.count i] = .ok [.count x] ∧
      later (PF.api cfg' ln c') ords' pre' [.count j] = .ok [.count x] :=
  (PF.implements cfg ln c).count_eq (PF.implements cfg' ln c') ords ords'
    (h.append (by simp) (by simp)) (h'.append (by simp) (by simp)) hs hs' hp hS

/-- The meaning of sketch 0 after `demoPF`: all three hashes, reduced to 32 bits. -/
example : ∃ s, (contents 32 16 demoPF)[0]? = some s ∧ s.p = 4 ∧ 7 ∈ s.S ∧
    s.S = {7, 9 * 11400714819323198485 % 2 ^ 32, 2 ^ 63 * 11400714819323198485 % 2 ^ 32} := by
  refine ⟨⟨fun v => BitVec.ofNat 64 v, 4, _⟩, rfl, rfl, ?_, ?_⟩ <;> decide

/-- **C06, all continuations.** If two programs leave sketches with the same meanings, no further
calls can tell the difference. -/
theorem C06_pf_later (h : Supported cfg c (pre ++ post)) (h' : Supported cfg' c' (pre' ++ post))
    (hc : contents 32 16 pre = contents 32 16 pre') :
    later (PF.api cfg ln c) ords pre post = later (PF.api cfg' ln c') ords' pre' post :=
  (PF.implements cfg ln c).later_congr (PF.implements cfg' ln c') ords ords' h h' hc

/-- **C07.** Inserting a value the low 32 bits of whose hash have been seen changes no later result. -/
theorem C07_pf_reinsert (h : Supported cfg c (pre ++ post)) {s : Abs I}
    (hs : (contents 32 16 pre)[i]? = some s) (k : InsertKind) {v : I}
    (hv : (s.builder v).toNat % 2 ^ 32 ∈ s.S) :
    later (PF.api cfg ln c) ords (pre ++ [.insert k i v]) post =
      later (PF.api cfg ln c) ords' pre post := by
  refine (PF.implements cfg ln c).later_congr (PF.implements cfg ln c) ords ords'
    (h.append_harmless (by simp) (by simp)) h (contents_reinsert k hs hv)

/-- **C07**, for a value with the same low 32 hash bits inserted by an earlier call. -/
theorem C07_pf_insert_twice {pre₁ pre₂ : List (Op I)} (k k' : InsertKind) {v v' : I} {s : Abs I}
    (hs : (contents 32 16 pre₁)[i]? = some s) (hv : (s.builder v).toNat % 2 ^ 32 = (s.builder v').toNat % 2 ^ 32)
    (h : Supported cfg c (pre₁ ++ [.insert k' i v'] ++ pre₂ ++ post)) :
    later (PF.api cfg ln c) ords (pre₁ ++ [.insert k' i v'] ++ pre₂ ++ [.insert k i v]) post =
      later (PF.api cfg ln c) ords' (pre₁ ++ [.insert k' i v'] ++ pre₂) post := by
  have h1 : (contents 32 16 (pre₁ ++ [.insert k' i v']))[i]? =
      some { s with S := insert ((s.builder v').toNat % 2 ^ 32) s.S } := by
    rw [contents_insert k' v' hs, List.getElem?_set_self (lt_of_get hs)]
  obtain ⟨t, h2, _, h4, h5⟩ := contentsFrom_mono 32 16 pre₂ _ h1
  rw [← contents_append] at h2
  refine C07_pf_reinsert h h2 k ?_
  rw [h4, hv]
  apply h5
  exact Finset.mem_insert_self _ _

/-- **C09.** `merge` is union: it returns `Ok`, and from then on everything is as if all the hashes
of sketch `j` had been inserted into sketch `i` one by one.  (`vs` are values to which the builder
of sketch `i` gives the hashes in sketch `j`; the two sketches may have different builders.) -/
theorem C09_pf_merge_is_union {s t : Abs I} (hs : (contents 32 16 pre)[i]? = some s)
    (ht : (contents 32 16 pre)[j]? = some t) (hp : s.p = t.p) (k : InsertKind) {vs : List I}
    (hvs : (vs.map fun v => (s.builder v).toNat % 2 ^ 32).toFinset = t.S)
    (h : Supported cfg c (pre ++ post)) :
    later (PF.api cfg ln c) ords pre [.merge i j] = .ok [.result (.ok ())] ∧
    later (PF.api cfg ln c) ords (pre ++ [.merge i j]) post =
      later (PF.api cfg ln c) ords' (pre ++ vs.map (Op.insert k i)) post := by
  constructor
  · rw [(PF.implements cfg ln c).later_ok ords (h.prefix.append (by simp) (by simp))]
    simp only [expectedFrom, observe, hs, ht, if_pos hp]
  · refine (PF.implements cfg ln c).later_congr (PF.implements cfg ln c) ords ords'
      (h.append_harmless (by simp) (by simp)) (h.append_harmless (by simp) (by simp)) ?_
    rw [contents_merge hs ht hp, contents_append, contentsFrom_inserts 32 16 k i vs _ s hs, ← hvs]

/-- **C09**, without naming values: a merged sketch counts like any sketch that has seen the union. -/
theorem C09_pf_merge_count {s t u : Abs I} (hs : (contents 32 16 pre)[i]? = some s)
    (ht : (contents 32 16 pre)[j]? = some t) (hp : s.p = t.p) {l : Nat}
    (hu : (contents 32 16 pre')[l]? = some u) (hpu : u.p = s.p) (hU : u.S = s.S ∪ t.S)
    (h : Supported cfg c pre) (h' : Supported cfg' c' pre') :
    ∃ x, later (PF.api cfg ln c) ords (pre ++ [.merge i j]) [.count i] = .ok [.count x] ∧
      later (PF.api cfg' ln c') ords' pre' [.count l] = .ok [.count x] :=
  C06_pf_count_depends_only_on_set (h.append (by simp) (by simp)) h' (get_merge hs ht hp) hu
    hpu.symm hU.symm

/-- **C09.** The argument of `merge` is unchanged: its count is the same before and after. -/
theorem C09_pf_merge_arg_unchanged {s t : Abs I} (hs : (contents 32 16 pre)[i]? = some s)
    (ht : (contents 32 16 pre)[j]? = some t) (hij : i ≠ j) (h : Supported cfg c pre) :
    ∃ x, later (PF.api cfg ln c) ords pre [.count j] = .ok [.count x] ∧
      later (PF.api cfg ln c) ords' (pre ++ [.merge i j]) [.count j] = .ok [.count x] := by
  refine C06_pf_count_depends_only_on_set h (h.append (by simp) (by simp)) ht (s' := t) ?_ rfl rfl
  by_cases hp : s.p = t.p
  · exact get_merge_ne hs ht hp ht hij
  · rw [contents_merge_ne hs ht hp]; exact ht

/-- **C10.** Merging is commutative as seen by `count`. -/
theorem C10_pf_merge_comm {s t : Abs I} (hs : (contents 32 16 pre)[i]? = some s)
    (ht : (contents 32 16 pre)[j]? = some t) (hp : s.p = t.p) (h : Supported cfg c pre) :
    ∃ x, later (PF.api cfg ln c) ords (pre ++ [.merge i j]) [.count i] = .ok [.count x] ∧
      later (PF.api cfg ln c) ords' (pre ++ [.merge j i]) [.count j] = .ok [.count x] :=
  C06_pf_count_depends_only_on_set (h.append (by simp) (by simp)) (h.append (by simp) (by simp))
    (get_merge hs ht hp) (get_merge ht hs hp.symm) hp (Finset.union_comm _ _)

/-- **C10.** Merging is associative as seen by `count`: `(a ∪ b) ∪ c` and `a ∪ (b ∪ c)`. -/
theorem C10_pf_merge_assoc {l : Nat} {s t u : Abs I} (hs : (contents 32 16 pre)[i]? = some s)
    (ht : (contents 32 16 pre)[j]? = some t) (hu : (contents 32 16 pre)[l]? = some u)
    (hp : s.p = t.p) (hp' : t.p = u.p) (hij : i ≠ j) (hil : i ≠ l) (hjl : j ≠ l)
    (h : Supported cfg c pre) :
    ∃ x, later (PF.api cfg ln c) ords (pre ++ [.merge i j] ++ [.merge i l]) [.count i] =
        .ok [.count x] ∧
      later (PF.api cfg ln c) ords' (pre ++ [.merge j l] ++ [.merge i j]) [.count i] =
        .ok [.count x] := by
  refine C06_pf_count_depends_only_on_set
    ((h.append (by simp) (by simp)).append (by simp) (by simp))
    ((h.append (by simp) (by simp)).append (by simp) (by simp))
    (get_merge (get_merge hs ht hp) (get_merge_ne hs ht hp hu hil) (hp.trans hp'))
    (get_merge (get_merge_ne ht hu hp' hs hij.symm) (get_merge ht hu hp') hp) rfl
    (Finset.union_assoc _ _ _)

/-- **C10.** Merging the same sketch again changes nothing, whatever happens later. -/
theorem C10_pf_merge_idem {s t : Abs I} (hs : (contents 32 16 pre)[i]? = some s)
    (ht : (contents 32 16 pre)[j]? = some t) (hp : s.p = t.p) (h : Supported cfg c (pre ++ post)) :
    later (PF.api cfg ln c) ords (pre ++ [.merge i j] ++ [.merge i j]) post =
      later (PF.api cfg ln c) ords' (pre ++ [.merge i j]) post := by
  refine C06_pf_later ((h.append_harmless (by simp) (by simp)).append_harmless (by simp) (by simp))
    (h.append_harmless (by simp) (by simp)) ?_
  have h1 := get_merge hs ht hp
  by_cases hij : i = j
  · subst hij
    rw [contents_merge h1 h1 rfl]
    rw [Finset.union_self]; exact set_self h1
  · have h2 := get_merge_ne hs ht hp ht hij
    rw [contents_merge h1 h2 hp]
    simp only [Finset.union_assoc, Finset.union_self]
    exact set_self h1

/-- **C10.** Merging a sketch whose hashes are all present, in particular an empty one, changes
nothing, whatever happens later. -/
theorem C10_pf_merge_subset {s t : Abs I} (hs : (contents 32 16 pre)[i]? = some s)
    (ht : (contents 32 16 pre)[j]? = some t) (hp : s.p = t.p) (hS : t.S ⊆ s.S)
    (h : Supported cfg c (pre ++ post)) :
    later (PF.api cfg ln c) ords (pre ++ [.merge i j]) post =
      later (PF.api cfg ln c) ords' pre post := by
  refine C06_pf_later (h.append_harmless (by simp) (by simp)) h ?_
  rw [contents_merge hs ht hp, Finset.union_eq_left.2 hS]
  exact set_self hs

/-- **C11.** `merge` returns `Ok` for equal precisions; otherwise it returns `IncompatiblePrecision`
and changes no later result. -/
theorem C11_pf_incompatible {s t : Abs I} (hs : (contents 32 16 pre)[i]? = some s)
    (ht : (contents 32 16 pre)[j]? = some t) (h : Supported cfg c (pre ++ post)) :
    later (PF.api cfg ln c) ords pre [.merge i j] =
      .ok [.result (if s.p = t.p then .ok () else .error .IncompatiblePrecision)] ∧
    (s.p ≠ t.p → later (PF.api cfg ln c) ords (pre ++ [.merge i j]) post =
      later (PF.api cfg ln c) ords' pre post) := by
  constructor
  · rw [(PF.implements cfg ln c).later_ok ords (h.prefix.append (by simp) (by simp))]
    simp only [expectedFrom, observe, hs, ht]
    split <;> rfl
  · intro hp
    exact C06_pf_later (h.append_harmless (by simp) (by simp)) h (contents_merge_ne hs ht hp)

/-- Sketches 0 (precision 4) and 3 (precision 16) of `demoPF` are incompatible, 0 and 1 are not. -/
example : ∃ s t u, (contents 32 16 demoPF)[0]? = some s ∧ (contents 32 16 demoPF)[3]? = some t ∧
    (contents 32 16 demoPF)[1]? = some u ∧ s.p ≠ t.p ∧ s.p = u.p ∧ u.S ⊆ s.S :=
  ⟨_, _, _, rfl, rfl, rfl, by decide, rfl, by decide⟩

/-- **C12.** `count` is observationally pure: removing or adding a `count` call anywhere changes no
later result, and a repeated `count` returns the same number. -/
theorem C12_pf_count_pure (h : Supported cfg c (pre ++ post)) :
    later (PF.api cfg ln c) ords (pre ++ [.count i]) post =
      later (PF.api cfg ln c) ords' pre post ∧
    later (PF.api cfg ln c) ords (pre ++ [.count i]) [.count i] =
      later (PF.api cfg ln c) ords' pre [.count i] :=
  ⟨C06_pf_later (h.append_harmless (by simp) (by simp)) h (contents_count pre i),
   C06_pf_later ((h.prefix.append (by simp) (by simp)).append (by simp) (by simp))
    (h.prefix.append (by simp) (by simp)) (contents_count pre i)⟩

/-- **C22, C40.** `insert`, `insert_any` and `add` have the same effect, which depends on the value only
through the low 32 bits of its hash. -/
theorem C22_pf_insert_kinds {s : Abs I} (hs : (contents 32 16 pre)[i]? = some s)
    (k k' : InsertKind) {v v' : I} (hv : (s.builder v).toNat % 2 ^ 32 = (s.builder v').toNat % 2 ^ 32)
    (h : Supported cfg c (pre ++ post)) :
    later (PF.api cfg ln c) ords (pre ++ [.insert k i v]) post =
      later (PF.api cfg ln c) ords' (pre ++ [.insert k' i v']) post := by
  refine C06_pf_later (h.append_harmless (by simp) (by simp)) (h.append_harmless (by simp) (by simp))
    ?_
  rw [contents_insert k v hs, contents_insert k' v' hs, hv]

/-- **C33.** The `const-loop` feature, like overflow checks and the word size, changes no result. -/
theorem C33_pf_const_loop (h : Supported cfg c ops) (h' : Supported cfg' c ops) :
    outputs (PF.api cfg ln c) ords ops = outputs (PF.api cfg' ln c) ords' ops := by
  rw [pf_refines h, pf_refines h']

example : Supported { Cfg.debug64 with constLoop := true } (noCodec Nat) demoPF ∧
    Supported { Cfg.debug64 with overflowChecks := false, sumFromNegZero := true } (noCodec Nat) demoPF :=
  ⟨supported64 rfl _ (by simp [demoPF]), supported64 rfl _ (by simp [demoPF])⟩

/-- **C35.** Serialising and deserialising a sketch is indistinguishable from cloning it: all later
results agree, at any point of any program. -/
theorem C35_pf_reload (h : Supported cfg c (pre ++ [.reload i] ++ post)) :
    later (PF.api cfg ln c) ords (pre ++ [.reload i]) post =
      later (PF.api cfg ln c) ords' (pre ++ [.clone i]) post := by
  refine C06_pf_later h (h.of_subset ?_ ?_) (contents_reload pre i)
  · intro p b hb; simpa using hb
  · intro l _; exact ⟨i, by simp⟩

/-- **C35.** Deserialising a serialised sketch never fails. -/
theorem C35_pf_reload_ok (h : Supported cfg c (pre ++ [.reload i])) {s : Abs I}
    (hs : (contents 32 16 pre)[i]? = some s) :
    later (PF.api cfg ln c) ords pre [.reload i] = .ok [.unit] := by
  rw [(PF.implements cfg ln c).later_ok ords h]
  simp only [expectedFrom, observe, hs]

/-- **C41.** Calls that do not write to a sketch do not change its count. -/
theorem C41_pf_frame {s : Abs I} (hs : (contents 32 16 pre)[i]? = some s)
    (hw : ∀ op ∈ post, ¬ Writes op i) (h : Supported cfg c (pre ++ post)) :
    ∃ x, later (PF.api cfg ln c) ords pre [.count i] = .ok [.count x] ∧
      later (PF.api cfg ln c) ords' (pre ++ post) [.count i] = .ok [.count x] :=
  C06_pf_count_depends_only_on_set h.prefix h hs
    (by rw [contents_append]; exact contentsFrom_frame 32 16 post _ hs hw) rfl rfl

/-- **C41.** A clone counts like the original did, and keeps doing so whatever is done to
the original or any other sketch.  The new sketch has index `(contents 32 16 pre).length`. -/
theorem C41_pf_clone_independent {s : Abs I} (hs : (contents 32 16 pre)[i]? = some s)
    (hw : ∀ op ∈ post, ¬ Writes op (contents 32 16 pre).length)
    (h : Supported cfg c (pre ++ [.clone i] ++ post)) :
    ∃ x, later (PF.api cfg ln c) ords pre [.count i] = .ok [.count x] ∧
      later (PF.api cfg ln c) ords' (pre ++ [.clone i] ++ post)
        [.count (contents 32 16 pre).length] = .ok [.count x] := by
  refine C06_pf_count_depends_only_on_set h.prefix.prefix h hs (s' := s) ?_ rfl rfl
  rw [contents_append]
  refine contentsFrom_frame 32 16 post _ ?_ hw
  rw [contents_append]
  simp only [contentsFrom, List.foldl_cons, List.foldl_nil, effect, hs]
  rw [List.getElem?_append_right le_rfl]; simp

example : (contents 32 16 (demoPF.take 7)).length = 2 ∧
    ∀ op ∈ [Op.insert .insert 0 55, .merge 0 1, .merge 1 2, .count 0, .reload 1], ¬ Writes (I := Nat) op 2 := by
  refine ⟨rfl, ?_⟩
  intro op hop
  simp only [List.mem_cons, List.not_mem_nil, or_false] at hop
  rcases hop with rfl | rfl | rfl | rfl | rfl <;> simp [Writes]

end HLL
