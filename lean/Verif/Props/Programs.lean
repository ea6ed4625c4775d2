import Verif.Props.Whole
import Verif.Props.WholePF

/-!
# C57: `count` is accurate in every program

C55 and C56 are about one sketch into which `n` distinct values are inserted.  Here the sketch is
built by an arbitrary program: values inserted in any order and any number of times, sketches cloned,
merged, counted, saved and loaded.  All sketches use the same builder, and the program does not
depend on the hashes.  Every assignment `h : Fin N → Fin (2^64)` of hashes to the `N` values that the
program may use is equally likely.
-/

namespace HLL
open Spec F64

variable {N : Nat}

/-- The effect of a call on the precisions and the sets of values received by all sketches. -/
def receive (maxP : Nat) (st : List (Nat × Finset (Fin N))) : Op (Fin N) → List (Nat × Finset (Fin N))
  | .new p _ => if 4 ≤ p ∧ p ≤ maxP then st ++ [(p, ∅)] else st
  | .clone i => match st[i]? with
    | some s => st ++ [s]
    | none => st
  | .insert _ i v => match st[i]? with
    | some s => st.set i (s.1, insert v s.2)
    | none => st
  | .merge i j => match st[i]?, st[j]? with
    | some s, some t => if s.1 = t.1 then st.set i (s.1, s.2 ∪ t.2) else st
    | _, _ => st
  | .count _ => st
  | .reload i => match st[i]? with
    | some s => st ++ [s]
    | none => st

/-- The precisions and the sets of values received by the sketches of a program. -/
def received (maxP : Nat) (ops : List (Op (Fin N))) : List (Nat × Finset (Fin N)) :=
  ops.foldl (receive maxP) []

/-- A call with the builder of `new` replaced by the one with the hashes `h`. -/
def withHashes (h : Fin N → Fin (2 ^ 64)) : Op (Fin N) → Op (Fin N)
  | .new p _ => .new p (builderOf h)
  | op => op

/-- The meaning of a sketch that received the values `s.2`. -/
def meaning (w : Nat) (h : Fin N → Fin (2 ^ 64)) (s : Nat × Finset (Fin N)) : Abs (Fin N) :=
  ⟨builderOf h, s.1, s.2.image fun v => (h v : Nat) % 2 ^ w⟩

theorem effect_meaning (w maxP : Nat) (h : Fin N → Fin (2 ^ 64)) (st : List (Nat × Finset (Fin N)))
    (op : Op (Fin N)) :
    effect w maxP (st.map (meaning w h)) (withHashes h op) = (receive maxP st op).map (meaning w h) := by
  cases op with
  | new p b =>
    simp only [withHashes, effect, receive]
    split
    · simp [meaning]
    · rfl
  | clone i =>
    simp only [withHashes, effect, receive, List.getElem?_map]
    cases st[i]? <;> simp
  | insert k i v =>
    simp only [withHashes, effect, receive, List.getElem?_map]
    cases st[i]? with
    | none => rfl
    | some s => simp [meaning, builderOf, List.map_set, Finset.image_insert]
  | merge i j =>
    simp only [withHashes, effect, receive, List.getElem?_map]
    cases st[i]? with
    | none => rfl
    | some s => cases st[j]? with
      | none => rfl
      | some t =>
        simp only [Option.map_some, meaning]
        split
        · simp [meaning, List.map_set, Finset.image_union]
        · rfl
  | count i => rfl
  | reload i =>
    simp only [withHashes, effect, receive, List.getElem?_map]
    cases st[i]? <;> simp

theorem contents_meaning (w maxP : Nat) (h : Fin N → Fin (2 ^ 64)) (ops : List (Op (Fin N))) :
    contents w maxP (ops.map (withHashes h)) = (received maxP ops).map (meaning w h) := by
  have : ∀ (ops : List (Op (Fin N))) (st : List (Nat × Finset (Fin N))),
      contentsFrom w maxP (st.map (meaning w h)) (ops.map (withHashes h)) =
        (ops.foldl (receive maxP) st).map (meaning w h) := by
    intro ops
    induction ops with
    | nil => intro st; rfl
    | cons op ops ih =>
      intro st
      rw [List.map_cons, contentsFrom, List.foldl_cons, ← contentsFrom, effect_meaning, ih,
        List.foldl_cons]
  exact this ops []

/-- Restricting a random assignment to a set of `n` values gives a random assignment. -/
theorem fraction_restrict (V : Finset (Fin N)) (w : Nat) (P : Finset Nat → Prop) :
    fraction (fun h : Fin N → Fin (2 ^ 64) => P (V.image fun v => (h v : Nat) % 2 ^ w)) =
      fraction (fun g : Fin V.card → Fin (2 ^ 64) => P (hashSet w g)) := by
  classical
  let e : {v // v ∈ V} ≃ Fin V.card := V.equivFin
  let E1 : (Fin N → Fin (2 ^ 64)) ≃ ({v // v ∈ V} → Fin (2 ^ 64)) × ({v // v ∉ V} → Fin (2 ^ 64)) :=
    Equiv.piEquivPiSubtypeProd (· ∈ V) fun _ => Fin (2 ^ 64)
  let E2 : ({v // v ∈ V} → Fin (2 ^ 64)) ≃ (Fin V.card → Fin (2 ^ 64)) :=
    Equiv.arrowCongr e (Equiv.refl _)
  let T := E1.trans (Equiv.prodCongr E2 (Equiv.refl _))
  have himg : ∀ h : Fin N → Fin (2 ^ 64),
      (V.image fun v => (h v : Nat) % 2 ^ w) = hashSet w (T h).1 := by
    intro h
    ext y
    simp only [hashSet, Finset.mem_image, Finset.mem_univ, true_and]
    constructor
    · rintro ⟨v, hv, rfl⟩
      refine ⟨e ⟨v, hv⟩, ?_⟩
      simp [T, E1, E2, Equiv.piEquivPiSubtypeProd]
    · rintro ⟨i, rfl⟩
      exact ⟨(e.symm i).1, (e.symm i).2, rfl⟩
  have hcard : ((Finset.univ : Finset (Fin N → Fin (2 ^ 64))).filter
      fun h => P (V.image fun v => (h v : Nat) % 2 ^ w)).card =
      ((Finset.univ : Finset (Fin V.card → Fin (2 ^ 64))).filter fun g => P (hashSet w g)).card *
        Fintype.card ({v // v ∉ V} → Fin (2 ^ 64)) := by
    rw [← Finset.card_univ, ← Finset.card_product]
    refine Finset.card_equiv T fun h => ?_
    simp [himg]
  have htot : Fintype.card (Fin N → Fin (2 ^ 64)) =
      Fintype.card (Fin V.card → Fin (2 ^ 64)) * Fintype.card ({v // v ∉ V} → Fin (2 ^ 64)) := by
    rw [Fintype.card_congr T, Fintype.card_prod]
  have h0 : (0 : ℝ) < Fintype.card ({v // v ∉ V} → Fin (2 ^ 64)) := by exact_mod_cast Fintype.card_pos
  unfold fraction
  rw [htot]
  have hc : ((Finset.univ.filter fun h : Fin N → Fin (2 ^ 64) =>
      P (V.image fun v => (h v : Nat) % 2 ^ w)).card : ℝ) =
      ((Finset.univ.filter fun g : Fin V.card → Fin (2 ^ 64) => P (hashSet w g)).card : ℝ) *
        Fintype.card ({v // v ∉ V} → Fin (2 ^ 64)) := by
    rw [← Nat.cast_mul, ← hcard]
  rw [Nat.cast_mul]
  calc _ = ((Finset.univ.filter fun h : Fin N → Fin (2 ^ 64) =>
      P (V.image fun v => (h v : Nat) % 2 ^ w)).card : ℝ) /
        ((Fintype.card (Fin V.card → Fin (2 ^ 64)) : ℝ) *
          Fintype.card ({v // v ∉ V} → Fin (2 ^ 64))) := by congr!
    _ = _ := by rw [hc, mul_div_mul_right _ _ h0.ne']
    _ = _ := by congr!

variable {cfg : Cfg} {ln : F64 → F64} {ords : Nat → IterOrder × IterOrder} {p i : Nat} {δ : ℝ}
  {ops : List (Op (Fin N))} {V : Finset (Fin N)}

theorem received_le {maxP : Nat} (hV : (received maxP ops)[i]? = some (p, V)) : p ≤ maxP := by
  have h0 : (contents 64 maxP (ops.map (withHashes fun _ => 0)))[i]? =
      some (meaning 64 (fun _ => 0) (p, V)) := by
    rw [contents_meaning, List.getElem?_map, hV]; rfl
  exact (contents_valid _ _ _ _ (List.mem_of_getElem? h0)).2.1

theorem received_ge {maxP : Nat} (hV : (received maxP ops)[i]? = some (p, V)) : 4 ≤ p := by
  have h0 : (contents 64 maxP (ops.map (withHashes fun _ => 0)))[i]? =
      some (meaning 64 (fun _ => 0) (p, V)) := by
    rw [contents_meaning, List.getElem?_map, hV]; rfl
  exact (contents_valid _ _ _ _ (List.mem_of_getElem? h0)).1

/-- **C57** for `HyperLogLogPlus`: run any program, with random hashes.  If sketch `i` has precision
`p ≥ 8` and received exactly the values `V`, then `count` on it returns a number that differs from
`n = |V|` by at most `(1.05 δ + 0.005 + 4/m) (n + 1.6 m)`, except with probability at most
`2.5 / (m δ²)`. -/
theorem C57_plus_programs (hln : LnSpec ln) (c : Serde.Codec (Fin N))
    (hs : ∀ h, Supported cfg c (ops.map (withHashes h)))
    (hV : (received 18 ops)[i]? = some (p, V)) (hn : V.card ≤ 2 ^ 59) (h1 : 8 ≤ p) (hδ0 : 0 < δ)
    (hδ : δ ≤ 1 / 10) :
    fraction (fun h : Fin N → Fin (2 ^ 64) => ¬ ∃ y : ℚ,
        later (Plus.api cfg ln c) ords (ops.map (withHashes h)) [.count i] = .ok [.count (fin y)] ∧
        |(y : ℝ) - V.card| ≤ (1.05 * δ + 0.005 + 4 / 2 ^ p) * (V.card + 1.6 * 2 ^ p)) ≤
      2.5 / (2 ^ p * δ ^ 2) := by
  have h2 : p ≤ 18 := received_le hV
  let P : Finset Nat → Prop := fun S => ¬ ∃ y : ℚ, plusCount ln (Plus.biasOf cfg.search) p S = fin y ∧
    |(y : ℝ) - V.card| ≤ (1.05 * δ + 0.005 + 4 / 2 ^ p) * (V.card + 1.6 * 2 ^ p)
  have key := C55_plus_accuracy (ords := ords) (cfg := { Cfg.debug64 with search := cfg.search }) hln
    rfl (noCodec (Fin V.card)) h1 h2 hδ0 hδ hn
  have e : fraction (fun h : Fin N → Fin (2 ^ 64) => P (V.image fun v => (h v : Nat) % 2 ^ 64)) ≤
      2.5 / (2 ^ p * δ ^ 2) := by
    rw [fraction_restrict]
    refine le_trans (fraction_mono fun g hg => ?_) key
    rintro ⟨y, e1, e2⟩
    refine hg ⟨y, ?_, e2⟩
    rw [plus_count_val (supported64 rfl _ (by simp [insertAll]))
      (contents_insertAll (by omega) h2 g)] at e1
    simpa using e1
  refine le_trans (fraction_mono fun h hh => ?_) e
  rintro ⟨y, e1, e2⟩
  refine hh ⟨y, ?_, e2⟩
  have hc : (contents 64 18 (ops.map (withHashes h)))[i]? = some (meaning 64 h (p, V)) := by
    rw [contents_meaning, List.getElem?_map, hV]; rfl
  rw [plus_count_val (hs h) hc]
  simp only [meaning]
  rw [e1]

/-- **C57** for `HyperLogLogPF`: run any program, with random hashes.  If sketch `i` has precision
`p ≥ 8` and received exactly the values `V`, `n = |V|`, and `(1 + δ + 1.1/m + 0.001) n ≤ 2^32/30`,
then `count` on it returns a number that differs from `n` by at most
`(1.05 δ + 0.005 + 4/m) (n + 1.6 m)`, plus `0.11 m` if `n > 2 m`, except with probability at most
`3.4 / (m δ²)`. -/
theorem C57_pf_programs (hln : LnSpec ln) (c : Serde.Codec (Fin N))
    (hs : ∀ h, Supported cfg c (ops.map (withHashes h)))
    (hV : (received 16 ops)[i]? = some (p, V)) (h1 : 8 ≤ p) (hδ0 : 0 < δ) (hδ : δ ≤ 1 / 10)
    (hn : (1 + (δ + 1.1 / 2 ^ p + 0.001)) * V.card ≤ 2 ^ 32 / 30) :
    fraction (fun h : Fin N → Fin (2 ^ 64) => ¬ ∃ y : ℚ,
        later (PF.api cfg ln c) ords (ops.map (withHashes h)) [.count i] = .ok [.count (fin y)] ∧
        |(y : ℝ) - V.card| ≤ (1.05 * δ + 0.005 + 4 / 2 ^ p) * (V.card + 1.6 * 2 ^ p) +
          (if V.card ≤ 2 * 2 ^ p then 0 else 0.11 * 2 ^ p)) ≤
      3.4 / (2 ^ p * δ ^ 2) := by
  have h2 : p ≤ 16 := received_le hV
  let P : Finset Nat → Prop := fun S => ¬ ∃ y : ℚ, pfCount ln p S = fin y ∧
    |(y : ℝ) - V.card| ≤ (1.05 * δ + 0.005 + 4 / 2 ^ p) * (V.card + 1.6 * 2 ^ p) +
          (if V.card ≤ 2 * 2 ^ p then 0 else 0.11 * 2 ^ p)
  have key := C56_pf_accuracy (ords := ords) (cfg := Cfg.debug64) hln
    rfl (noCodec (Fin V.card)) h1 h2 hδ0 hδ hn
  have e : fraction (fun h : Fin N → Fin (2 ^ 64) => P (V.image fun v => (h v : Nat) % 2 ^ 32)) ≤
      3.4 / (2 ^ p * δ ^ 2) := by
    rw [fraction_restrict]
    refine le_trans (fraction_mono fun g hg => ?_) key
    rintro ⟨y, e1, e2⟩
    refine hg ⟨y, ?_, e2⟩
    rw [pf_count_val (supported64 rfl _ (by simp [insertAll]))
      (contents_insertAll (by omega) h2 g)] at e1
    simpa using e1
  refine le_trans (fraction_mono fun h hh => ?_) e
  rintro ⟨y, e1, e2⟩
  refine hh ⟨y, ?_, e2⟩
  have hc : (contents 32 16 (ops.map (withHashes h)))[i]? = some (meaning 32 h (p, V)) := by
    rw [contents_meaning, List.getElem?_map, hV]; rfl
  rw [pf_count_val (hs h) hc]
  simp only [meaning]
  rw [e1]

/-- Two sketches of precision 14.  The first receives the values below `2a`, twice; the second those
from `a` to `3a`; then the second is merged into the first. -/
def twoSites (a : Nat) : List (Op (Fin (3 * a))) :=
  let low : List (Fin (3 * a)) := (List.finRange (3 * a)).filter fun v => v.val < 2 * a
  let high : List (Fin (3 * a)) := (List.finRange (3 * a)).filter fun v => a ≤ v.val
  [.new 14 fun _ => 0, .new 14 fun _ => 0] ++ low.map (.insert .insert 0) ++
    low.map (.insert .add 0) ++ high.map (.insert .insert 1) ++ [.merge 0 1]

theorem receive_inserts (maxP : Nat) (k : InsertKind) (l : List (Fin N)) (st : List (Nat × Finset (Fin N)))
    (s : Nat × Finset (Fin N)) (hs : st[i]? = some s) :
    (l.map (.insert k i)).foldl (receive maxP) st = st.set i (s.1, s.2 ∪ l.toFinset) := by
  induction l generalizing st s with
  | nil =>
    obtain ⟨h, rfl⟩ := List.getElem?_eq_some_iff.1 hs
    simp
  | cons v l ih =>
    have h := (List.getElem?_eq_some_iff.1 hs).1
    rw [List.map_cons, List.foldl_cons, receive, hs]
    simp only
    rw [ih (st.set i (s.1, insert v s.2)) (s.1, insert v s.2) (by simp [h])]
    simp [Finset.union_insert]

theorem received_twoSites (a : Nat) {maxP : Nat} (hM : 14 ≤ maxP) :
    (received maxP (twoSites a))[0]? = some (14, Finset.univ) := by
  unfold received twoSites
  simp only [List.foldl_append]
  rw [show [Op.new 14 fun _ => 0, .new 14 fun _ => 0].foldl (receive maxP) [] =
    [((14 : Nat), (∅ : Finset (Fin (3 * a)))), (14, ∅)] by simp [receive, hM]]
  rw [receive_inserts (i := 0) maxP .insert _ [(14, ∅), (14, ∅)] (14, ∅) rfl]
  simp only [List.set_cons_zero]
  rw [receive_inserts (i := 0) maxP .add _ [_, (14, ∅)] _ rfl]
  simp only [List.set_cons_zero]
  rw [receive_inserts (i := 1) maxP .insert _ [_, (14, ∅)] (14, ∅) rfl]
  simp only [List.set_cons_zero, List.set_cons_succ, List.foldl_cons, List.foldl_nil, receive,
    List.getElem?_cons_zero, List.getElem?_cons_succ]
  simp only [reduceIte, List.getElem?_cons_zero, Option.some.injEq, Prod.mk.injEq,
    true_and]
  ext v
  simp
  omega

theorem twoSites_reload (a : Nat) (h : Fin (3 * a) → Fin (2 ^ 64)) (i : Nat) :
    Op.reload i ∉ (twoSites a).map (withHashes h) := by
  simp [twoSites, withHashes]

/-- An instance: both sites have `200000` values, half of them shared; the merged sketch counts the
`300000` distinct values to within 23000 with probability at least 90 %. -/
example (hln : LnSpec ln) : fraction (fun h : Fin (3 * 100000) → Fin (2 ^ 64) => ¬ ∃ y : ℚ,
    later (Plus.api Cfg.debug64 ln (noCodec _)) ords ((twoSites 100000).map (withHashes h)) [.count 0] =
      .ok [.count (fin y)] ∧ |(y : ℝ) - (300000 : ℕ)| ≤ 23000) ≤ 0.1 := by
  have h := C57_plus_programs (ords := ords) (cfg := Cfg.debug64) (N := 3 * 100000)
    (ops := twoSites 100000) (δ := 0.04) hln (noCodec _)
    (fun h => supported64 rfl _ (twoSites_reload 100000 h))
    (received_twoSites 100000 (by norm_num)) (by rw [Finset.card_univ, Fintype.card_fin]; norm_num) (by norm_num)
    (by norm_num) (by norm_num)
  rw [Finset.card_univ, Fintype.card_fin] at h
  refine le_trans (fraction_mono fun x hx => ?_) (h.trans (by norm_num))
  rintro ⟨y, e1, e2⟩
  refine hx ⟨y, e1, ?_⟩
  norm_num at e2 ⊢
  linarith

end HLL
