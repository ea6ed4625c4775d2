import Verif.Proofs.History
import Verif.Props.Defs

/-! # Facts about the set machine, transferred to any interface that refines it -/

namespace HLL
open Spec

variable {A I : Type}

namespace Spec

theorem contentsFrom_append (w maxP : Nat) (st : List (Abs I)) (pre post : List (Op I)) :
    contentsFrom w maxP st (pre ++ post) = contentsFrom w maxP (contentsFrom w maxP st pre) post := by
  simp [contentsFrom]

theorem contents_append (w maxP : Nat) (pre post : List (Op I)) :
    contents w maxP (pre ++ post) = contentsFrom w maxP (contents w maxP pre) post :=
  contentsFrom_append w maxP [] pre post

theorem expectedFrom_append (w maxP : Nat) (F : Nat → Finset Nat → F64) :
    ∀ (pre post : List (Op I)) (st : List (Abs I)),
      expectedFrom w maxP F st (pre ++ post) =
        expectedFrom w maxP F st pre ++ expectedFrom w maxP F (contentsFrom w maxP st pre) post
  | [], _, _ => rfl
  | op :: pre, post, st => by
    simp only [List.cons_append, expectedFrom, expectedFrom_append w maxP F pre post]
    rfl

theorem length_expectedFrom (w maxP : Nat) (F : Nat → Finset Nat → F64) :
    ∀ (ops : List (Op I)) (st : List (Abs I)), (expectedFrom w maxP F st ops).length = ops.length
  | [], _ => rfl
  | op :: ops, st => by simp [expectedFrom, length_expectedFrom w maxP F ops]

/-- Inserting several values into a sketch. -/
theorem contentsFrom_inserts (w maxP : Nat) (k : InsertKind) (i : Nat) :
    ∀ (vs : List I) (st : List (Abs I)) (a : Abs I), st[i]? = some a →
      contentsFrom w maxP st (vs.map (Op.insert k i)) =
        st.set i { a with S := a.S ∪ (vs.map fun v => (a.builder v).toNat % 2 ^ w).toFinset }
  | [], st, a, h => by
    have : ({ a with S := a.S ∪ (([] : List I).map fun v => (a.builder v).toNat % 2 ^ w).toFinset } :
        Abs I) = a := by simp
    rw [this, set_self h]; rfl
  | v :: vs, st, a, h => by
    have hi : i < st.length := by
      by_contra hc
      rw [List.getElem?_eq_none (by omega)] at h; cases h
    rw [List.map_cons]
    change contentsFrom w maxP (effect w maxP st (.insert k i v)) _ = _
    simp only [effect, h]
    rw [contentsFrom_inserts w maxP k i vs _ _ (by rw [List.getElem?_set_self hi]), List.set_set]
    congr 2
    rw [List.map_cons, List.toFinset_cons]
    ext x; simp only [Finset.mem_union, Finset.mem_insert]; tauto

/-- A call leaves every sketch alone that it does not write. -/
theorem effect_frame (w maxP : Nat) (st : List (Abs I)) (op : Op I) {i : Nat} {a : Abs I}
    (h : st[i]? = some a) (hw : ¬ Writes op i) : (effect w maxP st op)[i]? = some a := by
  have hi : i < st.length := by
    by_contra hc
    rw [List.getElem?_eq_none (by omega)] at h; cases h
  cases op with
  | new p b =>
    simp only [effect]; split
    · rw [List.getElem?_append_left hi, h]
    · exact h
  | clone j =>
    simp only [effect]; split
    · rw [List.getElem?_append_left hi, h]
    · exact h
  | insert k j v =>
    have hij : j ≠ i := fun e => hw (Or.inl ⟨k, v, by rw [e]⟩)
    simp only [effect]; split
    · rw [List.getElem?_set_ne hij, h]
    · exact h
  | merge j l =>
    have hij : j ≠ i := fun e => hw (Or.inr (Or.inl ⟨l, by rw [e]⟩))
    simp only [effect]; split
    · split
      · rw [List.getElem?_set_ne hij, h]
      · exact h
    · exact h
  | count j => exact h
  | reload j =>
    simp only [effect]; split
    · rw [List.getElem?_append_left hi, h]
    · exact h

theorem contentsFrom_frame (w maxP : Nat) : ∀ (ops : List (Op I)) (st : List (Abs I)) {i : Nat}
    {a : Abs I}, st[i]? = some a → (∀ op ∈ ops, ¬ Writes op i) →
      (contentsFrom w maxP st ops)[i]? = some a
  | [], _, _, _, h, _ => h
  | op :: ops, st, _, _, h, hw =>
    contentsFrom_frame w maxP ops _ (effect_frame w maxP st op h (hw op (by simp)))
      (fun o ho => hw o (by simp [ho]))

/-- Sketches keep their precision and builder, and only gain hashes. -/
theorem effect_mono (w maxP : Nat) (st : List (Abs I)) (op : Op I) {i : Nat} {a : Abs I}
    (h : st[i]? = some a) : ∃ b, (effect w maxP st op)[i]? = some b ∧ b.p = a.p ∧
      b.builder = a.builder ∧ a.S ⊆ b.S := by
  have hi : i < st.length := by
    by_contra hc
    rw [List.getElem?_eq_none (by omega)] at h; cases h
  by_cases hw : Writes op i
  · rcases hw with ⟨k, v, rfl⟩ | ⟨j, rfl⟩ | rfl
    · simp only [effect, h]
      exact ⟨_, List.getElem?_set_self hi, rfl, rfl, Finset.subset_insert _ _⟩
    · simp only [effect, h]
      cases st[j]? with
      | none => exact ⟨a, h, rfl, rfl, subset_rfl⟩
      | some t =>
        simp only
        split
        · exact ⟨_, List.getElem?_set_self hi, rfl, rfl, Finset.subset_union_left⟩
        · exact ⟨a, h, rfl, rfl, subset_rfl⟩
    · exact ⟨a, h, rfl, rfl, subset_rfl⟩
  · exact ⟨a, effect_frame w maxP st op h hw, rfl, rfl, subset_rfl⟩

theorem contentsFrom_mono (w maxP : Nat) : ∀ (ops : List (Op I)) (st : List (Abs I)) {i : Nat}
    {a : Abs I}, st[i]? = some a → ∃ b, (contentsFrom w maxP st ops)[i]? = some b ∧ b.p = a.p ∧
      b.builder = a.builder ∧ a.S ⊆ b.S
  | [], _, _, a, h => ⟨a, h, rfl, rfl, subset_rfl⟩
  | op :: ops, st, _, a, h => by
    obtain ⟨b, h1, h2, h3, h4⟩ := effect_mono w maxP st op h
    obtain ⟨c, h5, h6, h7, h8⟩ := contentsFrom_mono w maxP ops _ h1
    exact ⟨c, h5, h6.trans h2, h7.trans h3, h4.trans h8⟩

/-- A property of all meanings that is preserved by insertion and union. -/
theorem effect_forall (w maxP : Nat) {Q : Abs I → Prop} (st : List (Abs I)) (op : Op I)
    (h0 : ∀ p b, op = .new p b → 4 ≤ p → p ≤ maxP → Q ⟨b, p, ∅⟩)
    (h1 : ∀ k i v a, op = .insert k i v → Q a →
      Q { a with S := insert ((a.builder v).toNat % 2 ^ w) a.S })
    (h2 : ∀ a b : Abs I, Q a → Q b → a.p = b.p → Q { a with S := a.S ∪ b.S })
    (h : ∀ a ∈ st, Q a) : ∀ a ∈ effect w maxP st op, Q a := by
  have hset : ∀ i b, Q b → ∀ a ∈ st.set i b, Q a := by
    intro i b hb a ha
    rcases List.mem_or_eq_of_mem_set ha with ha | rfl
    exacts [h a ha, hb]
  have hsnoc : ∀ b, Q b → ∀ a ∈ st ++ [b], Q a := by
    intro b hb a ha
    rcases List.mem_append.1 ha with ha | ha
    · exact h a ha
    · rw [List.mem_singleton.1 ha]; exact hb
  cases op with
  | new p b =>
    simp only [effect]; split
    · rename_i hp; exact hsnoc _ (h0 p b rfl hp.1 hp.2)
    · exact h
  | clone j =>
    simp only [effect]; split
    · rename_i s hs; exact hsnoc _ (h s (List.mem_of_getElem? hs))
    · exact h
  | insert k j v =>
    simp only [effect]; split
    · rename_i s hs; exact hset _ _ (h1 k j v s rfl (h s (List.mem_of_getElem? hs)))
    · exact h
  | merge j l =>
    simp only [effect]; split
    · rename_i s t hs ht
      split
      · rename_i hp
        exact hset _ _ (h2 s t (h s (List.mem_of_getElem? hs)) (h t (List.mem_of_getElem? ht)) hp)
      · exact h
    · exact h
  | count j => exact h
  | reload j =>
    simp only [effect]; split
    · rename_i s hs; exact hsnoc _ (h s (List.mem_of_getElem? hs))
    · exact h

theorem contentsFrom_forall (w maxP : Nat) {Q : Abs I → Prop} : ∀ (ops : List (Op I))
    (st : List (Abs I)),
    (∀ p b, Op.new p b ∈ ops → 4 ≤ p → p ≤ maxP → Q ⟨b, p, ∅⟩) →
    (∀ k i v a, Op.insert k i v ∈ ops → Q a →
      Q { a with S := insert ((a.builder v).toNat % 2 ^ w) a.S }) →
    (∀ a b : Abs I, Q a → Q b → a.p = b.p → Q { a with S := a.S ∪ b.S }) →
    (∀ a ∈ st, Q a) → ∀ a ∈ contentsFrom w maxP st ops, Q a
  | [], _, _, _, _, h => h
  | op :: ops, st, h0, h1, h2, h =>
    contentsFrom_forall w maxP ops _ (fun p b hb => h0 p b (by simp [hb]))
      (fun k i v a hb => h1 k i v a (by simp [hb])) h2
      (effect_forall w maxP st op (fun p b hb => h0 p b (by simp [hb]))
        (fun k i v a hb => h1 k i v a (by simp [hb])) h2 h)

/-- All meanings keep a valid precision and hashes of `w` bits. -/
theorem contentsFrom_valid (w maxP : Nat) (ops : List (Op I)) (st : List (Abs I))
    (h : ∀ a ∈ st, 4 ≤ a.p ∧ a.p ≤ maxP ∧ ∀ h ∈ a.S, h < 2 ^ w) :
    ∀ a ∈ contentsFrom w maxP st ops, 4 ≤ a.p ∧ a.p ≤ maxP ∧ ∀ h ∈ a.S, h < 2 ^ w := by
  apply contentsFrom_forall
  · intro p b _ h1 h2; exact ⟨h1, h2, by simp⟩
  · intro k i v a _ ⟨h1, h2, h3⟩
    refine ⟨h1, h2, ?_⟩
    intro h hh
    rcases Finset.mem_insert.1 hh with rfl | hh
    exacts [Nat.mod_lt _ (by positivity), h3 h hh]
  · intro a b ⟨h1, h2, h3⟩ ⟨_, _, h4⟩ _
    refine ⟨h1, h2, ?_⟩
    intro h hh
    rcases Finset.mem_union.1 hh with hh | hh
    exacts [h3 h hh, h4 h hh]
  · exact h

/-- All meanings have a valid precision and hashes of `w` bits. -/
theorem contents_valid (w maxP : Nat) (ops : List (Op I)) :
    ∀ a ∈ contents w maxP ops, 4 ≤ a.p ∧ a.p ≤ maxP ∧ ∀ h ∈ a.S, h < 2 ^ w :=
  contentsFrom_valid w maxP ops [] (by simp)

theorem contents_noInsert (w maxP : Nat) {ops : List (Op I)} (hn : NoInsert ops) :
    ∀ a ∈ contents w maxP ops, a.S = ∅ := by
  apply contentsFrom_forall
  · intro p b _ h1 h2; rfl
  · intro k i v a h; exact absurd h (hn k i v)
  · intro a b h1 h2 _; simp [h1, h2]
  · simp

end Spec

/-- The interface returns what the set machine returns, for the programs in `G`. -/
def Implements (a : Api A I) (w maxP : Nat) (F : Nat → Finset Nat → F64) (G : List (Op I) → Prop) :
    Prop :=
  ∀ ords ops, G ops → outputs a ords ops = .ok (expected w maxP F ops)

theorem Implements.later_ok {a : Api A I} {w maxP : Nat} {F : Nat → Finset Nat → F64}
    {G : List (Op I) → Prop} (h : Implements a w maxP F G) (ords : Nat → IterOrder × IterOrder)
    {pre post : List (Op I)} (hG : G (pre ++ post)) :
    later a ords pre post = .ok (expectedFrom w maxP F (contents w maxP pre) post) := by
  rw [HLL.later, h ords _ hG, ok_bind, expected, expectedFrom_append,
    List.drop_left' (length_expectedFrom w maxP F pre [])]
  rfl

theorem Supported.of_subset {cfg : Cfg} {c : Serde.Codec I} {ops ops' : List (Op I)}
    (h : Supported cfg c ops) (hs : ∀ p b, Op.new p b ∈ ops' → Op.new p b ∈ ops)
    (hr : ∀ i, Op.reload i ∈ ops' → ∃ j, Op.reload j ∈ ops) :
    Supported cfg c ops' := by
  refine ⟨?_, fun ⟨i, hi⟩ p b hb => h.2 (hr i hi) p b (hs p b hb)⟩
  rcases h.1 with h | ⟨h1, h2⟩
  · exact Or.inl h
  · exact Or.inr ⟨h1, fun p b hb => h2 p b (hs p b hb)⟩

theorem Supported.bits {cfg : Cfg} {c : Serde.Codec I} {ops : List (Op I)} (h : Supported cfg c ops) :
    32 ≤ cfg.usizeBits := by
  rcases h.1 with h | ⟨h1, _⟩ <;> omega

theorem Supported.allowed {cfg : Cfg} {c : Serde.Codec I} {ops : List (Op I)}
    (h : Supported cfg c ops) {maxP : Nat} (hm : maxP ≤ 18) :
    ∀ op ∈ ops, Allowed maxP cfg c (∃ i, Op.reload i ∈ ops) op := by
  intro op hop
  cases op with
  | new p b =>
    refine ⟨fun hp => ?_, fun hr => h.2 hr p b hop⟩
    rcases h.1 with h | ⟨h1, h2⟩
    · omega
    · have := h2 p b hop; omega
  | reload i => exact ⟨i, hop⟩
  | _ => trivial

namespace Plus

theorem implements (cfg : Cfg) (ln : F64 → F64) (c : Serde.Codec I) :
    Implements (Plus.api cfg ln c) 64 18 (plusCount ln (biasOf cfg.search)) (Supported cfg c) :=
  fun ords ops hs => (sim cfg hs.bits ln c _).outputs_ok ords ops (hs.allowed le_rfl)

end Plus

namespace PF

theorem implements (cfg : Cfg) (ln : F64 → F64) (c : Serde.Codec I) :
    Implements (PF.api cfg ln c) 32 16 (pfCount ln) (Supported cfg c) :=
  fun ords ops hs => (sim cfg ln c _).outputs_ok ords ops (hs.allowed (by norm_num))

end PF
end HLL
