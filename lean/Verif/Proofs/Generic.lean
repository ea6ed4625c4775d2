import Verif.Proofs.SetMachine

/-! # Consequences of refining the set machine, for any interface -/

namespace HLL
open Spec

variable {A I : Type}

namespace Implements

variable {cfg : Cfg} {c : Serde.Codec I} {a : Api A I} {w maxP : Nat} {F : Nat → Finset Nat → F64}

/-- Programs that leave the same meanings behind cannot be told apart afterwards. -/
theorem later_congr {G G' : List (Op I) → Prop} {B : Type} {b : Api B I}
    (h : Implements a w maxP F G) (h' : Implements b w maxP F G')
    (ords ords' : Nat → IterOrder × IterOrder) {pre pre' post : List (Op I)}
    (hG : G (pre ++ post)) (hG' : G' (pre' ++ post))
    (hc : contents w maxP pre = contents w maxP pre') :
    later a ords pre post = later b ords' pre' post := by
  rw [h.later_ok ords hG, h'.later_ok ords' hG', hc]

theorem count_eq {G G' : List (Op I) → Prop} {B : Type} {b : Api B I}
    (h : Implements a w maxP F G) (h' : Implements b w maxP F G')
    (ords ords' : Nat → IterOrder × IterOrder) {pre pre' : List (Op I)} {i i' : Nat}
    {s s' : Abs I} (hG : G (pre ++ [.count i])) (hG' : G' (pre' ++ [.count i']))
    (hs : (contents w maxP pre)[i]? = some s) (hs' : (contents w maxP pre')[i']? = some s')
    (hp : s.p = s'.p) (hS : s.S = s'.S) :
    ∃ x, later a ords pre [.count i] = .ok [.count x] ∧
      later b ords' pre' [.count i'] = .ok [.count x] := by
  rw [h.later_ok ords hG, h'.later_ok ords' hG']
  refine ⟨F s.p s.S, ?_, ?_⟩
  · simp only [expectedFrom, observe, hs]
  · simp only [expectedFrom, observe, hs', hp, hS]

theorem count_val {G : List (Op I) → Prop}
    (h : Implements a w maxP F G)
    (ords : Nat → IterOrder × IterOrder) {pre : List (Op I)} {i : Nat}
    {s : Abs I} (hG : G (pre ++ [.count i])) (hs : (contents w maxP pre)[i]? = some s) :
    later a ords pre [.count i] = .ok [.count (F s.p s.S)] := by
  rw [h.later_ok ords hG]; simp only [expectedFrom, observe, hs]

end Implements

theorem lt_of_get {α : Type} {l : List α} {i : Nat} {a : α} (h : l[i]? = some a) : i < l.length := by
  by_contra hc
  rw [List.getElem?_eq_none (by omega)] at h; cases h

namespace Spec
variable {w maxP : Nat}

theorem contents_insert {pre : List (Op I)} {i : Nat} {s : Abs I} (k : InsertKind) (v : I)
    (hs : (contents w maxP pre)[i]? = some s) :
    contents w maxP (pre ++ [.insert k i v]) =
      (contents w maxP pre).set i { s with S := insert ((s.builder v).toNat % 2 ^ w) s.S } := by
  rw [contents_append]
  simp only [contentsFrom, List.foldl_cons, List.foldl_nil, effect, hs]

theorem contents_merge {pre : List (Op I)} {i j : Nat} {s t : Abs I}
    (hs : (contents w maxP pre)[i]? = some s) (ht : (contents w maxP pre)[j]? = some t)
    (hp : s.p = t.p) :
    contents w maxP (pre ++ [.merge i j]) =
      (contents w maxP pre).set i { s with S := s.S ∪ t.S } := by
  rw [contents_append]
  simp only [contentsFrom, List.foldl_cons, List.foldl_nil, effect, hs, ht, if_pos hp]

theorem contents_merge_ne {pre : List (Op I)} {i j : Nat} {s t : Abs I}
    (hs : (contents w maxP pre)[i]? = some s) (ht : (contents w maxP pre)[j]? = some t)
    (hp : s.p ≠ t.p) : contents w maxP (pre ++ [.merge i j]) = contents w maxP pre := by
  rw [contents_append]
  simp only [contentsFrom, List.foldl_cons, List.foldl_nil, effect, hs, ht, if_neg hp]

theorem contents_count (pre : List (Op I)) (i : Nat) :
    contents w maxP (pre ++ [.count i]) = contents w maxP pre := by
  rw [contents_append]; rfl

theorem contents_reload (pre : List (Op I)) (i : Nat) :
    contents w maxP (pre ++ [.reload i]) = contents w maxP (pre ++ [.clone i]) := by
  rw [contents_append, contents_append]; rfl

theorem contents_reinsert {pre : List (Op I)} {i : Nat} {s : Abs I} (k : InsertKind) {v : I}
    (hs : (contents w maxP pre)[i]? = some s) (hv : (s.builder v).toNat % 2 ^ w ∈ s.S) :
    contents w maxP (pre ++ [.insert k i v]) = contents w maxP pre := by
  rw [contents_insert k v hs, Finset.insert_eq_of_mem hv]
  exact set_self hs

/-- After merging, sketch `i` means the union. -/
theorem get_merge {pre : List (Op I)} {i j : Nat} {s t : Abs I}
    (hs : (contents w maxP pre)[i]? = some s) (ht : (contents w maxP pre)[j]? = some t)
    (hp : s.p = t.p) :
    (contents w maxP (pre ++ [.merge i j]))[i]? = some { s with S := s.S ∪ t.S } := by
  rw [contents_merge hs ht hp, List.getElem?_set_self (lt_of_get hs)]

theorem get_merge_ne {pre : List (Op I)} {i j k : Nat} {s t u : Abs I}
    (hs : (contents w maxP pre)[i]? = some s) (ht : (contents w maxP pre)[j]? = some t)
    (hp : s.p = t.p) (hu : (contents w maxP pre)[k]? = some u) (hk : i ≠ k) :
    (contents w maxP (pre ++ [.merge i j]))[k]? = some u := by
  rw [contents_merge hs ht hp, List.getElem?_set_ne hk, hu]

end Spec

/-- Appending calls that create no sketch and reload nothing keeps a program supported. -/
theorem Supported.append_harmless {cfg : Cfg} {c : Serde.Codec I} {pre post mid : List (Op I)}
    (h : Supported cfg c (pre ++ post)) (h1 : ∀ p b, Op.new p b ∉ mid)
    (h2 : ∀ i, Op.reload i ∉ mid) : Supported cfg c ((pre ++ mid) ++ post) := by
  refine h.of_subset ?_ ?_
  · intro p b hb
    simp only [List.mem_append] at hb ⊢
    rcases hb with (hb | hb) | hb
    exacts [Or.inl hb, absurd hb (h1 p b), Or.inr hb]
  · intro i hi
    simp only [List.mem_append] at hi ⊢
    rcases hi with (hi | hi) | hi
    exacts [⟨i, Or.inl hi⟩, absurd hi (h2 i), ⟨i, Or.inr hi⟩]

theorem Supported.prefix {cfg : Cfg} {c : Serde.Codec I} {pre post : List (Op I)}
    (h : Supported cfg c (pre ++ post)) : Supported cfg c pre :=
  h.of_subset (fun p b hb => by simp [hb]) (fun i hi => ⟨i, by simp [hi]⟩)

/-- Continuations made only of merges and counts. -/
theorem Supported.append {cfg : Cfg} {c : Serde.Codec I} {pre mid : List (Op I)}
    (h : Supported cfg c pre) (h1 : ∀ p b, Op.new p b ∉ mid)
    (h2 : ∀ i, Op.reload i ∉ mid) : Supported cfg c (pre ++ mid) := by
  have := Supported.append_harmless (mid := mid) (post := []) (by simpa using h) h1 h2
  simpa using this

end HLL
