import Verif.Props.Tails
import Mathlib.Logic.Equiv.Fin.Basic

/-!
# C76: sketches with independent builders

`std::collections::hash_map::RandomState::new()` gives every sketch its own hash function.  `merge`
accepts sketches with different builders (also of different types), and then a value that both sketches
received is counted twice.  Here a program may use `K` builders; builder `k` gives the value `v` the hash
`h (k, v)`, and every assignment of hashes to pairs is equally likely.
-/

namespace HLL
open Spec F64

variable {K N : Nat}

/-- The number of a pair of a builder and a value. -/
abbrev pairNo (x : Fin K × Fin N) : Fin (K * N) := finProdFinEquiv x

/-- A call, with the number of the builder it uses in case it is `new`. -/
abbrev BOp (K N : Nat) := Fin K × Op (Fin N)

/-- The call with the builder replaced by builder `op.1`. -/
def withBuilders (h : Fin (K * N) → Fin (2 ^ 64)) (op : BOp K N) : Op (Fin N) :=
  match op.2 with
  | .new p _ => .new p fun v => BitVec.ofFin (h (pairNo (op.1, v)))
  | o => o

/-- What is known of a sketch without knowing the hashes: its builder, its precision, and the pairs of a
builder and a value that it received, itself or through `merge`. -/
abbrev BState (K N : Nat) := Fin K × Nat × Finset (Fin K × Fin N)

/-- The effect of a call. -/
def receiveB (maxP : Nat) (st : List (BState K N)) (op : BOp K N) : List (BState K N) :=
  match op.2 with
  | .new p _ => if 4 ≤ p ∧ p ≤ maxP then st ++ [(op.1, p, ∅)] else st
  | .clone i => match st[i]? with
    | some s => st ++ [s]
    | none => st
  | .insert _ i v => match st[i]? with
    | some s => st.set i (s.1, s.2.1, insert (s.1, v) s.2.2)
    | none => st
  | .merge i j => match st[i]?, st[j]? with
    | some s, some t => if s.2.1 = t.2.1 then st.set i (s.1, s.2.1, s.2.2 ∪ t.2.2) else st
    | _, _ => st
  | .count _ => st
  | .reload i => match st[i]? with
    | some s => st ++ [s]
    | none => st

/-- The sketches of a program. -/
def receivedB (maxP : Nat) (ops : List (BOp K N)) : List (BState K N) := ops.foldl (receiveB maxP) []

/-- The meaning of a sketch. -/
def meaningB (w : Nat) (h : Fin (K * N) → Fin (2 ^ 64)) (s : BState K N) : Abs (Fin N) :=
  ⟨fun v => BitVec.ofFin (h (pairNo (s.1, v))), s.2.1, s.2.2.image fun x => (h (pairNo x) : Nat) % 2 ^ w⟩

theorem effect_meaningB (w maxP : Nat) (h : Fin (K * N) → Fin (2 ^ 64)) (st : List (BState K N))
    (op : BOp K N) :
    effect w maxP (st.map (meaningB w h)) (withBuilders h op) = (receiveB maxP st op).map (meaningB w h) := by
  obtain ⟨k, op⟩ := op
  cases op with
  | new p b =>
    simp only [withBuilders, effect, receiveB]
    split
    · simp [meaningB]
    · rfl
  | clone i =>
    simp only [withBuilders, effect, receiveB, List.getElem?_map]
    cases st[i]? <;> simp
  | insert k i v =>
    simp only [withBuilders, effect, receiveB, List.getElem?_map]
    cases st[i]? with
    | none => rfl
    | some s => simp [meaningB, List.map_set, Finset.image_insert]
  | merge i j =>
    simp only [withBuilders, effect, receiveB, List.getElem?_map]
    cases st[i]? with
    | none => rfl
    | some s => cases st[j]? with
      | none => rfl
      | some t =>
        simp only [Option.map_some, meaningB]
        split
        · simp [meaningB, List.map_set, Finset.image_union]
        · rfl
  | count i => rfl
  | reload i =>
    simp only [withBuilders, effect, receiveB, List.getElem?_map]
    cases st[i]? <;> simp

theorem contents_meaningB (w maxP : Nat) (h : Fin (K * N) → Fin (2 ^ 64)) (ops : List (BOp K N)) :
    contents w maxP (ops.map (withBuilders h)) = (receivedB maxP ops).map (meaningB w h) := by
  have : ∀ (ops : List (BOp K N)) (st : List (BState K N)),
      contentsFrom w maxP (st.map (meaningB w h)) (ops.map (withBuilders h)) =
        (ops.foldl (receiveB maxP) st).map (meaningB w h) := by
    intro ops
    induction ops with
    | nil => intro st; rfl
    | cons op ops ih =>
      intro st
      rw [List.map_cons, contentsFrom, List.foldl_cons, ← contentsFrom, effect_meaningB, ih,
        List.foldl_cons]
  exact this ops []

/-- The hashes of a set of pairs. -/
theorem image_pairs (V : Finset (Fin K × Fin N)) (w : Nat) (h : Fin (K * N) → Fin (2 ^ 64)) :
    (V.image fun x => (h (pairNo x) : Nat) % 2 ^ w) =
      (V.map finProdFinEquiv.toEmbedding).image fun v => (h v : Nat) % 2 ^ w := by
  rw [Finset.map_eq_image, Finset.image_image]
  rfl

variable {cfg : Cfg} {ln : F64 → F64} {ords : Nat → IterOrder × IterOrder} {p i : Nat} {δ : ℝ}
  {ops : List (BOp K N)} {V : Finset (Fin K × Fin N)} {k : Fin K}

theorem receivedB_le {maxP : Nat} (hV : (receivedB maxP ops)[i]? = some (k, p, V)) : p ≤ maxP := by
  have h0 : (contents 64 maxP (ops.map (withBuilders fun _ => 0)))[i]? =
      some (meaningB 64 (fun _ => 0) (k, p, V)) := by
    rw [contents_meaningB, List.getElem?_map, hV]; rfl
  exact (contents_valid _ _ _ _ (List.mem_of_getElem? h0)).2.1

/-- **C76** for `HyperLogLogPlus`: run any program, with independent random builders.  If sketch `i` has
precision `p ≥ 8` and received exactly the set `V` of pairs of a builder and a value, itself or
through `merge`, then `count` on it differs from `n = |V|` by at most
`(1.05 δ + 0.005 + 4/m) (n + 1.6 m)`, except with probability at most `6 exp(-m δ²/4)`. -/
theorem C76_plus_builders (hln : LnSpec ln) (c : Serde.Codec (Fin N))
    (hs : ∀ h, Supported cfg c (ops.map (withBuilders h)))
    (hV : (receivedB 18 ops)[i]? = some (k, p, V)) (hn : V.card ≤ 2 ^ 59) (h1 : 8 ≤ p) (hδ0 : 0 < δ)
    (hδ : δ ≤ 1 / 10) :
    fraction (fun h : Fin (K * N) → Fin (2 ^ 64) => ¬ ∃ y : ℚ,
        later (Plus.api cfg ln c) ords (ops.map (withBuilders h)) [.count i] = .ok [.count (fin y)] ∧
        |(y : ℝ) - V.card| ≤ (1.05 * δ + 0.005 + 4 / 2 ^ p) * (V.card + 1.6 * 2 ^ p)) ≤
      6 * Real.exp (-(2 ^ p * δ ^ 2 / 4)) := by
  have key := plus_tail hln cfg.search h1 (receivedB_le hV) hδ0 hδ
    (n := (V.map finProdFinEquiv.toEmbedding).card) (by rwa [Finset.card_map])
  rw [← fraction_restrict _ 64 fun S => ¬ ∃ y : ℚ, plusCount ln (Plus.biasOf cfg.search) p S = fin y ∧
    |(y : ℝ) - (V.map finProdFinEquiv.toEmbedding).card| ≤
      (1.05 * δ + 0.005 + 4 / 2 ^ p) * ((V.map finProdFinEquiv.toEmbedding).card + 1.6 * 2 ^ p)] at key
  refine le_trans (fraction_mono fun h hh => ?_) key
  rintro ⟨y, e1, e2⟩
  rw [Finset.card_map] at e2
  refine hh ⟨y, ?_, e2⟩
  have hc : (contents 64 18 (ops.map (withBuilders h)))[i]? = some (meaningB 64 h (k, p, V)) := by
    rw [contents_meaningB, List.getElem?_map, hV]; rfl
  rw [plus_count_val (hs h) hc]
  simp only [meaningB]
  rw [image_pairs, e1]

/-- **C76** for `HyperLogLogPF`: the same for `(1 + δ + 1.1/m + 0.001) n ≤ 2^32/30`, with a further error of
`0.11 m` if `n > 2 m` and probability at most `4 exp(-m δ²/6)`. -/
theorem C76_pf_builders (hln : LnSpec ln) (c : Serde.Codec (Fin N))
    (hs : ∀ h, Supported cfg c (ops.map (withBuilders h)))
    (hV : (receivedB 16 ops)[i]? = some (k, p, V)) (h1 : 8 ≤ p) (hδ0 : 0 < δ) (hδ : δ ≤ 1 / 10)
    (hn : (1 + (δ + 1.1 / 2 ^ p + 0.001)) * V.card ≤ 2 ^ 32 / 30) :
    fraction (fun h : Fin (K * N) → Fin (2 ^ 64) => ¬ ∃ y : ℚ,
        later (PF.api cfg ln c) ords (ops.map (withBuilders h)) [.count i] = .ok [.count (fin y)] ∧
        |(y : ℝ) - V.card| ≤ (1.05 * δ + 0.005 + 4 / 2 ^ p) * (V.card + 1.6 * 2 ^ p) +
          (if V.card ≤ 2 * 2 ^ p then 0 else 0.11 * 2 ^ p)) ≤
      4 * Real.exp (-(2 ^ p * δ ^ 2 / 6)) := by
  have key := pf_tail hln h1 (receivedB_le hV) hδ0 hδ
    (n := (V.map finProdFinEquiv.toEmbedding).card) (by rwa [Finset.card_map])
  rw [← fraction_restrict _ 32 fun S => ¬ ∃ y : ℚ, pfCount ln p S = fin y ∧
    |(y : ℝ) - (V.map finProdFinEquiv.toEmbedding).card| ≤
      (1.05 * δ + 0.005 + 4 / 2 ^ p) * ((V.map finProdFinEquiv.toEmbedding).card + 1.6 * 2 ^ p) +
      (if (V.map finProdFinEquiv.toEmbedding).card ≤ 2 * 2 ^ p then 0 else 0.11 * 2 ^ p)] at key
  refine le_trans (fraction_mono fun h hh => ?_) key
  rintro ⟨y, e1, e2⟩
  rw [Finset.card_map] at e2
  refine hh ⟨y, ?_, e2⟩
  have hc : (contents 32 16 (ops.map (withBuilders h)))[i]? = some (meaningB 32 h (k, p, V)) := by
    rw [contents_meaningB, List.getElem?_map, hV]; rfl
  rw [pf_count_val (hs h) hc]
  simp only [meaningB]
  rw [image_pairs, e1]

/-- The pairs of builder `k` and the values in `A`. -/
def pairs (k : Fin K) (A : Finset (Fin N)) : Finset (Fin K × Fin N) := A.image fun v => (k, v)

theorem card_pairs (k : Fin K) (A : Finset (Fin N)) : (pairs k A).card = A.card :=
  Finset.card_image_of_injective _ fun _ _ h => (Prod.mk.inj h).2

theorem card_pairs_union {k l : Fin K} (hkl : k ≠ l) (A B : Finset (Fin N)) :
    (pairs k A ∪ pairs l B).card = A.card + B.card := by
  rw [Finset.card_union_of_disjoint, card_pairs, card_pairs]
  rw [Finset.disjoint_left]
  intro x hx hy
  obtain ⟨a, -, rfl⟩ := Finset.mem_image.1 hx
  obtain ⟨b, -, h⟩ := Finset.mem_image.1 hy
  exact hkl (Prod.mk.inj h).1.symm

variable {A B : Finset (Fin N)} {l : Fin K} {j : Nat}

/-- The sketch after `merge`. -/
theorem receivedB_merge {maxP : Nat} {U W : Finset (Fin K × Fin N)} (k' : Fin K)
    (hA : (receivedB maxP ops)[i]? = some (k, p, U)) (hB : (receivedB maxP ops)[j]? = some (l, p, W)) :
    (receivedB maxP (ops ++ [(k', Op.merge i j)]))[i]? = some (k, p, U ∪ W) := by
  unfold receivedB at hA hB ⊢
  rw [List.foldl_append, List.foldl_cons, List.foldl_nil, receiveB]
  simp only [hA, hB, if_true]
  rw [List.getElem?_set_self (List.getElem?_eq_some_iff.1 hA).1]

/-- **C76**, merging sketches with different builders: if sketch `i` received the values `A` with one builder
and sketch `j` the values `B` with another one, then after merging `j` into `i` the count is close to
`|A| + |B|`, however many values `A` and `B` have in common. -/
theorem C76_plus_counted_twice (hln : LnSpec ln) (c : Serde.Codec (Fin N)) (k' : Fin K)
    (hs : ∀ h, Supported cfg c ((ops ++ [(k', Op.merge i j)]).map (withBuilders h))) (hkl : k ≠ l)
    (hA : (receivedB 18 ops)[i]? = some (k, p, pairs k A))
    (hB : (receivedB 18 ops)[j]? = some (l, p, pairs l B))
    (hn : A.card + B.card ≤ 2 ^ 59) (h1 : 8 ≤ p) (hδ0 : 0 < δ) (hδ : δ ≤ 1 / 10) :
    fraction (fun h : Fin (K * N) → Fin (2 ^ 64) => ¬ ∃ y : ℚ,
        later (Plus.api cfg ln c) ords ((ops ++ [(k', Op.merge i j)]).map (withBuilders h)) [.count i] =
          .ok [.count (fin y)] ∧
        |(y : ℝ) - (A.card + B.card)| ≤
          (1.05 * δ + 0.005 + 4 / 2 ^ p) * (A.card + B.card + 1.6 * 2 ^ p)) ≤
      6 * Real.exp (-(2 ^ p * δ ^ 2 / 4)) := by
  have key := C76_plus_builders (ords := ords) hln c hs (receivedB_merge k' hA hB)
    (by rwa [card_pairs_union hkl]) h1 hδ0 hδ
  rw [card_pairs_union hkl, Nat.cast_add] at key
  exact key

/-- **C76**, the same for `HyperLogLogPF`. -/
theorem C76_pf_counted_twice (hln : LnSpec ln) (c : Serde.Codec (Fin N)) (k' : Fin K)
    (hs : ∀ h, Supported cfg c ((ops ++ [(k', Op.merge i j)]).map (withBuilders h))) (hkl : k ≠ l)
    (hA : (receivedB 16 ops)[i]? = some (k, p, pairs k A))
    (hB : (receivedB 16 ops)[j]? = some (l, p, pairs l B)) (h1 : 8 ≤ p) (hδ0 : 0 < δ) (hδ : δ ≤ 1 / 10)
    (hn : (1 + (δ + 1.1 / 2 ^ p + 0.001)) * (A.card + B.card) ≤ 2 ^ 32 / 30) :
    fraction (fun h : Fin (K * N) → Fin (2 ^ 64) => ¬ ∃ y : ℚ,
        later (PF.api cfg ln c) ords ((ops ++ [(k', Op.merge i j)]).map (withBuilders h)) [.count i] =
          .ok [.count (fin y)] ∧
        |(y : ℝ) - (A.card + B.card)| ≤
          (1.05 * δ + 0.005 + 4 / 2 ^ p) * (A.card + B.card + 1.6 * 2 ^ p) +
            (if A.card + B.card ≤ 2 * 2 ^ p then 0 else 0.11 * 2 ^ p)) ≤
      4 * Real.exp (-(2 ^ p * δ ^ 2 / 6)) := by
  have key := C76_pf_builders (ords := ords) hln c hs (receivedB_merge k' hA hB) h1 hδ0 hδ
    (by rwa [card_pairs_union hkl, Nat.cast_add])
  rw [card_pairs_union hkl, Nat.cast_add] at key
  exact key

/-- Two sketches with different builders receive the same values. -/
def sameValues (a : Nat) : List (BOp 2 a) :=
  [(0, .new 14 fun _ => 0), (1, .new 14 fun _ => 0)] ++
    (List.finRange a).map (fun v => (0, .insert .insert 0 v)) ++
    (List.finRange a).map (fun v => (0, .insert .insert 1 v))

theorem receiveB_inserts (maxP : Nat) (k' : Fin K) (o : InsertKind) (vs : List (Fin N)) (st : List (BState K N))
    (s : BState K N) (hs : st[i]? = some s) :
    (vs.map fun v => ((k', .insert o i v) : BOp K N)).foldl (receiveB maxP) st =
      st.set i (s.1, s.2.1, s.2.2 ∪ pairs s.1 vs.toFinset) := by
  induction vs generalizing st s with
  | nil =>
    obtain ⟨h, rfl⟩ := List.getElem?_eq_some_iff.1 hs
    simp [pairs]
  | cons v vs ih =>
    rw [List.map_cons, List.foldl_cons]
    have hi := (List.getElem?_eq_some_iff.1 hs).1
    rw [show receiveB maxP st (k', .insert o i v) = st.set i (s.1, s.2.1, insert (s.1, v) s.2.2) by
      simp [receiveB, hs]]
    rw [ih _ (s.1, s.2.1, insert (s.1, v) s.2.2) (by simp [hi]), List.set_set]
    congr 3
    ext x
    simp [pairs]

theorem receivedB_sameValues (a : Nat) {maxP : Nat} (hM : 14 ≤ maxP) :
    receivedB maxP (sameValues a) =
      [(0, 14, pairs 0 Finset.univ), (1, 14, pairs 1 Finset.univ)] := by
  unfold receivedB sameValues
  simp only [List.foldl_append]
  rw [show [((0 : Fin 2), (Op.new 14 fun _ => 0 : Op (Fin a))), (1, .new 14 fun _ => 0)].foldl
    (receiveB maxP) [] = [((0 : Fin 2), 14, (∅ : Finset (Fin 2 × Fin a))), (1, 14, ∅)] by
      simp [receiveB, hM]]
  rw [receiveB_inserts (i := 0) maxP 0 .insert _ [(0, 14, ∅), (1, 14, ∅)] (0, 14, ∅) rfl]
  simp only [List.set_cons_zero]
  rw [receiveB_inserts (i := 1) maxP 0 .insert _ [_, (1, 14, ∅)] (1, 14, ∅) rfl]
  have : (List.finRange a).toFinset = Finset.univ := by ext; simp
  simp [this]

/-- An instance: two sketches with `2^14` registers and different builders both receive the same 200000
values.  After merging, the count is at least 350000, except with probability below `10^-14`. -/
example (hln : LnSpec ln) : fraction (fun h : Fin (2 * 200000) → Fin (2 ^ 64) => ¬ ∃ y : ℚ,
    later (Plus.api Cfg.debug64 ln (noCodec _)) ords
      ((sameValues 200000 ++ [(0, Op.merge 0 1)]).map (withBuilders h)) [.count 0] = .ok [.count (fin y)] ∧
    350000 ≤ (y : ℝ)) ≤ 1 / 10 ^ 14 := by
  have hr := receivedB_sameValues 200000 (maxP := 18) (by norm_num)
  have hc : (Finset.univ : Finset (Fin 200000)).card = 200000 := by
    rw [Finset.card_univ, Fintype.card_fin]
  have h := C76_plus_counted_twice (ords := ords) (cfg := Cfg.debug64) (K := 2) (N := 200000)
    (ops := sameValues 200000) (δ := 0.1) (i := 0) (j := 1) (p := 14) (A := Finset.univ) (B := Finset.univ)
    (k := 0) (l := 1) hln (noCodec _) 0
    (fun h => supported64 rfl _ (by simp [sameValues, withBuilders])) (by decide)
    (by rw [hr]; rfl) (by rw [hr]; rfl) (by rw [hc]; norm_num) (by norm_num) (by norm_num) (by norm_num)
  rw [hc] at h
  refine le_trans (fraction_mono fun g hg => ?_) (h.trans ?_)
  · rintro ⟨y, e1, e2⟩
    refine hg ⟨y, e1, ?_⟩
    rw [abs_le] at e2
    norm_num at e2 ⊢
    linarith
  · have := exp_neg_le (x := 2 ^ 14 * 0.1 ^ 2 / 4) (k := 40) (by norm_num)
    norm_num at this ⊢
    linarith

end HLL
