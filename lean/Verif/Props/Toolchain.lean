import Verif.Props.Targets
import Verif.Props.Estimator
import Verif.Proofs.Popcount

/-!
# C48, C49: what depends on the standard library and on the feature `std`
-/

namespace HLL
open F64 Spec

variable {I : Type} {cfg : Cfg} {ln : F64 → F64} {c : Serde.Codec I}
  {ords ords' : Nat → IterOrder × IterOrder} {ops : List (Op I)}

/-! ## C48: start value of sums, size of the lookup table -/

/-- **C48.** Whether `f64: Sum` starts from `0.0` or from `-0.0` changes no result. -/
theorem C48_plus_sum_start (h : Supported cfg c ops) (b : Bool) :
    outputs (Plus.api { cfg with sumFromNegZero := b } ln c) ords ops =
      outputs (Plus.api cfg ln c) ords ops :=
  C33_plus_const_loop (cfg := { cfg with sumFromNegZero := b }) h h

/-- **C48** for `HyperLogLogPF`; moreover the lookup table of `const-loop` may have only 32 entries,
as in builds without `std`. -/
theorem C48_pf_sum_start (h : Supported cfg c ops) (b std : Bool) :
    outputs (PF.api { cfg with sumFromNegZero := b, std := std } ln c) ords ops =
      outputs (PF.api cfg ln c) ords ops :=
  C33_pf_const_loop (cfg := { cfg with sumFromNegZero := b, std := std }) h h

example : Supported { Cfg.debug64 with constLoop := true } (noCodec Nat) demoPF ∧
    (Common.RAW { Cfg.debug64 with constLoop := true, std := false }).length = 32 :=
  ⟨supported64 rfl _ (by simp [demoPF]), by simp [Common.RAW, Cfg.debug64]⟩

/-! ## C49: the binary search -/

/-- What the documentation of `slice::binary_search_by` promises, for slices sorted without
repetition: it finds the element if there is one, and otherwise the place where it belongs. -/
def SearchContract (search : List F64 → F64 → R (Nat ⊕ Nat)) : Prop :=
  ∀ es raw, (∀ i j, i < j → j < es.length → F64.partialCmp (es.getD i nan) (es.getD j nan) = some .lt) →
    (∀ e ∈ es, e ≠ nan) → raw ≠ nan →
    (∃ i, search es raw = .ok (.inl i) ∧ i < es.length ∧
      F64.partialCmp (es.getD i nan) raw = some .eq) ∨
    (∃ i, search es raw = .ok (.inr i) ∧ i ≤ es.length ∧
      (∀ j, j < i → F64.partialCmp (es.getD j nan) raw = some .lt) ∧
      ∀ j, i ≤ j → j < es.length → F64.partialCmp (es.getD j nan) raw = some .gt)

theorem Plus.interpolateBias_congr {search search' : List F64 → F64 → R (Nat ⊕ Nat)}
    {es bs : List F64} {raw : F64} {r r' : Nat ⊕ Nat} (h : search es raw = .ok r)
    (h' : search' es raw = .ok r') (hp : Plus.pos r = Plus.pos r') (cfg : Cfg) :
    interpolateBias cfg search es bs raw = interpolateBias cfg search' es bs raw := by
  unfold interpolateBias
  rw [h, h']
  cases r <;> cases r' <;> simp only [Plus.pos] at hp <;> subst hp <;> rfl

/-- With comparisons in order, the result of a search is determined. -/
theorem Plus.Bracket.unique {c : Nat → Ordering} {n : Nat}
    (hc : ∀ i j, i < j → j < n → c i ≠ .lt → c j = .gt) {r r' : Nat ⊕ Nat}
    (h : Bracket c n r) (h' : Bracket c n r') : Plus.pos r = Plus.pos r' := by
  have key : ∀ {a b : Nat ⊕ Nat}, Bracket c n a → Bracket c n b → ¬ pos a < pos b := by
    intro a b ha hb hlt
    have h1 : c (pos a) ≠ .lt := by
      cases a with
      | inl m => simp only [pos]; rw [ha.2]; simp
      | inr m =>
        simp only [pos] at *
        rcases ha.2.2 with h | h
        · cases b with
          | inl k => have := hb.1; simp only [pos] at hlt; omega
          | inr k => have := hb.1; simp only [pos] at hlt; omega
        · rw [h]; simp
    cases b with
    | inl k =>
      have := hc _ _ hlt hb.1 h1
      simp only [pos] at this
      rw [hb.2] at this
      cases this
    | inr k =>
      change pos a < k at hlt
      have hk := hb.1
      rcases hb.2.1 with h | h
      · omega
      · rcases Nat.lt_or_ge (pos a) (k - 1) with h2 | h2
        · have := hc _ _ h2 (by omega) h1
          rw [h] at this; cases this
        · have : pos a = k - 1 := by omega
          rw [this] at h1
          exact h1 h
  exact Nat.le_antisymm (Nat.not_lt.1 (key h' h)) (Nat.not_lt.1 (key h h'))

/-- The place of a double that is not NaN in the order of doubles. -/
def F64.key : F64 → WithBot (WithTop ℚ)
  | nan => 0
  | inf true => ⊥
  | inf false => ((⊤ : WithTop ℚ) : WithBot (WithTop ℚ))
  | negZero => ((0 : ℚ) : WithTop ℚ)
  | fin q => (q : WithTop ℚ)

theorem cmp_rat (x y : ℚ) (i : Decidable (x < y)) (j : Decidable (x = y)) :
    ((@ite _ (x < y) i Ordering.lt (@ite _ (x = y) j .eq .gt)) = .lt ↔ x < y) ∧
    ((@ite _ (x < y) i Ordering.lt (@ite _ (x = y) j .eq .gt)) = .gt ↔ y < x) := by
  rcases lt_trichotomy x y with h | h | h
  · rw [if_pos h]; simp [h, h.le]
  · subst h; simp
  · rw [if_neg h.not_gt, if_neg h.ne']; simp [h, h.le]

theorem cmp_key {x y : F64} (hx : x ≠ nan) (hy : y ≠ nan) :
    (F64.cmp x y = .lt ↔ x.key < y.key) ∧ (F64.cmp x y = .gt ↔ y.key < x.key) := by
  have hq : ∀ a b : ℚ, (((a : WithTop ℚ) : WithBot (WithTop ℚ)) < ((b : WithTop ℚ) : WithBot (WithTop ℚ)) ↔ a < b) := by
    intro a b; rw [WithBot.coe_lt_coe, WithTop.coe_lt_coe]
  have hT : ∀ a : ℚ, ((a : WithTop ℚ) : WithBot (WithTop ℚ)) < ⊤ := by
    intro a
    rw [← WithBot.coe_top, WithBot.coe_lt_coe]
    exact WithTop.coe_lt_top a
  have hT0 : (0 : WithBot (WithTop ℚ)) < ⊤ := hT 0
  cases x with
  | nan => exact absurd rfl hx
  | inf a =>
    cases y with
    | nan => exact absurd rfl hy
    | inf b => cases a <;> cases b <;> simp [F64.cmp, partialCmp, F64.key, hT, hT0]
    | negZero => cases a <;> simp [F64.cmp, partialCmp, F64.key, hT, hT0]
    | fin q => cases a <;> simp [F64.cmp, partialCmp, F64.key, hT, hT0]
  | negZero =>
    cases y with
    | nan => exact absurd rfl hy
    | inf b => cases b <;> simp [F64.cmp, partialCmp, F64.key, hT, hT0]
    | negZero => simp [F64.cmp, partialCmp, F64.key, hT, hT0]
    | fin q => simp only [F64.key, hq]; exact cmp_rat _ _ _ _
  | fin p =>
    cases y with
    | nan => exact absurd rfl hy
    | inf b => cases b <;> simp [F64.cmp, partialCmp, F64.key, hT, hT0]
    | negZero => simp only [F64.key, hq]; exact cmp_rat _ _ _ _
    | fin q => simp only [F64.key, hq]; exact cmp_rat _ _ _ _

/-- Comparisons of a strictly increasing table with a target are in order. -/
theorem cmp_ordered {x y : ℚ} (hxy : x < y) {raw : F64} (hraw : raw ≠ nan)
    (h : F64.cmp (fin x) raw ≠ .lt) : F64.cmp (fin y) raw = .gt := by
  rw [Ne, (cmp_key (by simp) hraw).1, not_lt] at h
  rw [(cmp_key (by simp) hraw).2]
  refine lt_of_le_of_lt h ?_
  simp only [F64.key]
  rw [WithBot.coe_lt_coe, WithTop.coe_lt_coe]
  exact hxy

theorem Plus.table_ordered {p : Nat} (hp1 : 4 ≤ p) (hp2 : p ≤ 18) (h5 : p ≠ 5) (h6 : p ≠ 6)
    {raw : F64} (hraw : raw ≠ nan) (i j : Nat) (hij : i < j) (hj : j < (rawTable p).length)
    (h : cmp ((rawTable p).getD i nan) raw ≠ .lt) : cmp ((rawTable p).getD j nan) raw = .gt := by
  obtain ⟨x, y, e1, e2, hxy⟩ := C30_tables_sorted_partial hp1 hp2 h5 h6 i j hij hj
  have e1' : (rawTable p).getD i nan = fin x := e1
  have e2' : (rawTable p).getD j nan = fin y := e2
  rw [e1'] at h
  rw [e2']
  exact cmp_ordered hxy hraw h

theorem Plus.rawTable_ne_nan {p : Nat} (hp1 : 4 ≤ p) (hp2 : p ≤ 18) : ∀ e ∈ rawTable p, e ≠ nan := by
  have hl1 : Constants.RAW_ESTIMATE_DATA.length = 15 := by
    have := congrArg List.length raw_lengths; simpa using this
  apply raw_ne_nan
  rw [rawTable, List.getD_eq_getElem _ _ (by omega)]
  exact List.getElem_mem _

/-- **C49, the true part.** For all precisions except 5 and 6, the bias does not depend on how
`binary_search_by` works: any search that keeps the documented promise gives the bias of the model.
Missing for the full claim: precisions 5 and 6.  Their tables are not sorted, so the documentation
promises nothing; see `C49_search_partial` for 5 and `C49_refuted` for 6. -/
theorem C49_bias_partial {search : List F64 → F64 → R (Nat ⊕ Nat)} (hs : SearchContract search)
    {p : Nat} (hp1 : 4 ≤ p) (hp2 : p ≤ 18) (h5 : p ≠ 5) (h6 : p ≠ 6)
    {raw : F64} (hraw : raw ≠ nan) :
    Plus.interpolateBias cfg search (Constants.RAW_ESTIMATE_DATA.getD (p - 4) [])
        (Constants.BIAS_DATA.getD (p - 4) []) raw =
      Plus.estimateBias cfg p raw := by
  have hl1 : Constants.RAW_ESTIMATE_DATA.length = 15 := by
    have := congrArg List.length Plus.raw_lengths; simpa using this
  have hl2 : Constants.BIAS_DATA.length = 15 := by
    have := congrArg List.length Plus.bias_lengths; simpa using this
  have hnn := Plus.rawTable_ne_nan hp1 hp2
  have hord := Plus.table_ordered hp1 hp2 h5 h6 hraw
  obtain ⟨r, e1, e2⟩ := Plus.binarySearch_ok cfg.search hnn hraw
  have hsorted : ∀ i j, i < j → j < (Plus.rawTable p).length →
      F64.partialCmp ((Plus.rawTable p).getD i nan) ((Plus.rawTable p).getD j nan) = some .lt := by
    intro i j hij hj
    obtain ⟨x, y, e1, e2, hxy⟩ := C30_tables_sorted_partial hp1 hp2 h5 h6 i j hij hj
    have e1' : (Plus.rawTable p).getD i nan = fin x := e1
    have e2' : (Plus.rawTable p).getD j nan = fin y := e2
    rw [e1', e2']
    simp [partialCmp, val, hxy]
  have hcmp : ∀ {j o}, F64.partialCmp ((Plus.rawTable p).getD j nan) raw = some o →
      cmp ((Plus.rawTable p).getD j nan) raw = o := by
    intro j o h; rw [F64.cmp, h]; rfl
  have hsr : ∃ r', search (Plus.rawTable p) raw = .ok r' ∧
      Plus.Bracket (fun i => cmp ((Plus.rawTable p).getD i nan) raw) (Plus.rawTable p).length r' := by
    rcases hs _ raw hsorted hnn hraw with ⟨i, h1, h2, h3⟩ | ⟨i, h1, h2, h3, h4⟩
    · exact ⟨_, h1, h2, hcmp h3⟩
    · refine ⟨_, h1, h2, ?_, ?_⟩
      · rcases Nat.eq_zero_or_pos i with h | h
        · exact Or.inl h
        · exact Or.inr (hcmp (h3 _ (by omega)))
      · rcases Nat.lt_or_ge i (Plus.rawTable p).length with h | h
        · exact Or.inr (hcmp (h4 _ le_rfl h))
        · exact Or.inl (by omega)
  obtain ⟨r', e1', e2'⟩ := hsr
  have key := Plus.interpolateBias_congr (bs := Plus.biasTable p) e1' e1 (e2'.unique hord e2) cfg
  rw [show Constants.RAW_ESTIMATE_DATA.getD (p - 4) [] = Plus.rawTable p from rfl,
    show Constants.BIAS_DATA.getD (p - 4) [] = Plus.biasTable p from rfl, key, Plus.estimateBias,
    show Plus.MIN_PRECISION = 4 from rfl, subU8_ok cfg hp1 (by omega), ok_bind,
    index_ok (by omega), ok_bind, index_ok (by omega), ok_bind, Plus.rawTable,
    Plus.biasTable, List.getD_eq_getElem _ _ (by omega), List.getD_eq_getElem _ _ (by omega)]

/-- Observations agree if the estimates of all sketches do. -/
theorem expectedFrom_congr (w maxP : Nat) {F G : Nat → Finset Nat → F64} (P : Nat → Prop)
    (hFG : ∀ p S, 4 ≤ p → p ≤ maxP → P p → (∀ h ∈ S, h < 2 ^ w) → F p S = G p S) :
    ∀ (ops : List (Op I)) (st : List (Abs I)), (∀ p b, .new p b ∈ ops → P p) →
      (∀ a ∈ st, P a.p ∧ 4 ≤ a.p ∧ a.p ≤ maxP ∧ ∀ h ∈ a.S, h < 2 ^ w) →
      expectedFrom w maxP F st ops = expectedFrom w maxP G st ops
  | [], _, _, _ => rfl
  | op :: ops, st, ho, hst => by
    have hget : ∀ {i : Nat} {a : Abs I}, st[i]? = some a → P a.p ∧ 4 ≤ a.p ∧ a.p ≤ maxP ∧ ∀ h ∈ a.S, h < 2 ^ w :=
      fun h => hst _ (List.mem_of_getElem? h)
    have h1 : observe maxP F st op = observe maxP G st op := by
      cases op with
      | count i =>
        simp only [observe]
        cases hi : st[i]? with
        | none => rfl
        | some a =>
          obtain ⟨a1, a2, a3, a4⟩ := hget hi
          simp only
          rw [hFG _ _ a2 a3 a1 a4]
      | _ => rfl
    have hap : ∀ {b : Abs I}, (P b.p ∧ 4 ≤ b.p ∧ b.p ≤ maxP ∧ ∀ h ∈ b.S, h < 2 ^ w) →
        ∀ a ∈ st ++ [b], P a.p ∧ 4 ≤ a.p ∧ a.p ≤ maxP ∧ ∀ h ∈ a.S, h < 2 ^ w := by
      intro b hb a ha
      rcases List.mem_append.1 ha with h | h
      · exact hst a h
      · rw [List.mem_singleton] at h; subst h; exact hb
    have hse : ∀ {b : Abs I} {i : Nat}, (P b.p ∧ 4 ≤ b.p ∧ b.p ≤ maxP ∧ ∀ h ∈ b.S, h < 2 ^ w) →
        ∀ a ∈ st.set i b, P a.p ∧ 4 ≤ a.p ∧ a.p ≤ maxP ∧ ∀ h ∈ a.S, h < 2 ^ w := by
      intro b i hb a ha
      rcases List.mem_or_eq_of_mem_set ha with h | h
      · exact hst a h
      · subst h; exact hb
    have h2 : ∀ a ∈ effect w maxP st op, P a.p ∧ 4 ≤ a.p ∧ a.p ≤ maxP ∧ ∀ h ∈ a.S, h < 2 ^ w := by
      cases op with
      | new p b =>
        simp only [effect]
        split
        · rename_i hp
          exact hap ⟨ho p b (by simp), hp.1, hp.2, by simp⟩
        · exact hst
      | clone i =>
        simp only [effect]
        split
        · rename_i s hs; exact hap (hget hs)
        · exact hst
      | insert k i v =>
        simp only [effect]
        split
        · rename_i s hs
          obtain ⟨a1, a2, a3, a4⟩ := hget hs
          refine hse ⟨a1, a2, a3, ?_⟩
          intro h hh
          rcases Finset.mem_insert.1 hh with h0 | h0
          · rw [h0]; exact Nat.mod_lt _ (by positivity)
          · exact a4 h h0
        · exact hst
      | merge i j =>
        simp only [effect]
        split
        · rename_i s t hs ht
          split
          · obtain ⟨a1, a2, a3, a4⟩ := hget hs
            obtain ⟨_, _, _, b4⟩ := hget ht
            refine hse ⟨a1, a2, a3, ?_⟩
            intro h hh
            rcases Finset.mem_union.1 hh with h0 | h0
            exacts [a4 h h0, b4 h h0]
          · exact hst
        · exact hst
      | count i => exact hst
      | reload i =>
        simp only [effect]
        split
        · rename_i s hs; exact hap (hget hs)
        · exact hst
    rw [expectedFrom, expectedFrom, h1, expectedFrom_congr w maxP P hFG ops _
      (fun p b hb => ho p b (List.mem_cons_of_mem _ hb)) h2]

/-- Both implementations of the search found in the standard library keep the promise. -/
theorem binarySearch_contract (v : Search) : SearchContract (Plus.binarySearch v) := by
  intro es raw hs hnn hraw
  obtain ⟨r, e1, e2⟩ := Plus.binarySearch_ok v hnn hraw
  have hp : ∀ {j}, j < es.length → F64.partialCmp (es.getD j nan) raw = some (F64.cmp (es.getD j nan) raw) := by
    intro j hj
    refine partialCmp_eq ?_ hraw
    rw [List.getD_eq_getElem _ _ hj]
    exact hnn _ (List.getElem_mem hj)
  have hne : ∀ {j}, j < es.length → es.getD j nan ≠ nan := by
    intro j hj
    rw [List.getD_eq_getElem _ _ hj]
    exact hnn _ (List.getElem_mem hj)
  have key_lt : ∀ {i j}, i < j → j < es.length → (es.getD i nan).key < (es.getD j nan).key := by
    intro i j hij hj
    have h := hs i j hij hj
    rw [partialCmp_eq (hne (by omega)) (hne hj), Option.some.injEq] at h
    exact (cmp_key (hne (by omega)) (hne hj)).1.1 h
  have up : ∀ {i j}, i < j → j < es.length → F64.cmp (es.getD i nan) raw = .gt →
      F64.cmp (es.getD j nan) raw = .gt := by
    intro i j hij hj h
    have h1 := key_lt hij hj
    rw [(cmp_key (hne (by omega)) hraw).2] at h
    rw [(cmp_key (hne hj) hraw).2]
    exact h.trans h1
  have down : ∀ {i j}, i < j → j < es.length → F64.cmp (es.getD j nan) raw = .lt →
      F64.cmp (es.getD i nan) raw = .lt := by
    intro i j hij hj h
    have h1 := key_lt hij hj
    rw [(cmp_key (hne hj) hraw).1] at h
    rw [(cmp_key (hne (by omega)) hraw).1]
    exact h1.trans h
  cases r with
  | inl i => exact Or.inl ⟨i, e1, e2.1, (hp e2.1).trans (congrArg some e2.2)⟩
  | inr i =>
    refine Or.inr ⟨i, e1, e2.1, ?_, ?_⟩
    · intro j hj
      have := e2.1
      rw [hp (by omega)]
      rcases e2.2.1 with h | h
      · omega
      · rcases Nat.lt_or_ge j (i - 1) with h1 | h1
        · rw [down h1 (by omega) h]
        · rw [show j = i - 1 by omega]; exact congrArg some h
    · intro j hj hj2
      rw [hp hj2]
      rcases e2.2.2 with h | h
      · omega
      · rcases Nat.lt_or_ge i j with h1 | h1
        · rw [up h1 hj2 h]
        · rw [show j = i by omega]; exact congrArg some h

/-- `C49_bias_partial` applies to a search other than the one used by the model. -/
example : SearchContract (Plus.binarySearch .branchless) ∧ Cfg.debug64.search = .earlyExit :=
  ⟨binarySearch_contract _, rfl⟩

theorem biasOf_search (v v' : Search) {p : Nat} (hp1 : 4 ≤ p) (hp2 : p ≤ 18) (h5 : p ≠ 5)
    (h6 : p ≠ 6) {raw : F64} (hraw : raw ≠ nan) : Plus.biasOf v p raw = Plus.biasOf v' p raw := by
  have h := C49_bias_partial (cfg := { Cfg.debug64 with search := v })
    (binarySearch_contract v) hp1 hp2 h5 h6 hraw
  have h' := C49_bias_partial (cfg := { Cfg.debug64 with search := v' })
    (binarySearch_contract v) hp1 hp2 h5 h6 hraw
  have e : Plus.estimateBias { Cfg.debug64 with search := v } p raw =
      Plus.estimateBias { Cfg.debug64 with search := v' } p raw := by
    rw [← h, ← h']; rfl
  rw [Plus.biasOf, e, Plus.biasOf]

/-! The table for precision 5 has two pairs of neighbours in the wrong order. -/

theorem Plus.table5_eq (i : Nat) (hi : i < 159) : (rawTable 5).getD i nan = fin (rawV 5 i) :=
  (facts (p := 5) (by norm_num) (by norm_num) (k := i)
    (by rw [show (rawTable 5).length = 159 by decide +kernel]; exact hi)).raw_eq

theorem Plus.table5_order : ∀ i < 159, ∀ j < 159, i < j →
    rawV 5 i < rawV 5 j ∨ (i = 127 ∧ j = 128) ∨ (i = 130 ∧ j = 131) := by
  have h1 : ∀ j : Fin 158, rawV 5 j < rawV 5 (j + 1) ∨ j.1 = 127 ∨ j.1 = 130 := by decide +kernel
  have h2 : rawV 5 126 < rawV 5 128 ∧ rawV 5 127 < rawV 5 129 ∧ rawV 5 129 < rawV 5 131 ∧
      rawV 5 130 < rawV 5 132 := by decide +kernel
  obtain ⟨a1, a2, a3, a4⟩ := h2
  suffices H : ∀ j, j < 159 → ∀ i, i < j →
      rawV 5 i < rawV 5 j ∨ (i = 127 ∧ j = 128) ∨ (i = 130 ∧ j = 131) from
    fun i _ j hj hij => H j hj i hij
  intro j
  induction j using Nat.strongRecOn with
  | _ j ih =>
    intro hj i hij
    obtain ⟨k, rfl⟩ : ∃ k, j = k + 1 := ⟨j - 1, by omega⟩
    have hk := h1 ⟨k, by omega⟩
    simp only at hk
    rcases Nat.lt_or_ge i k with h | h
    · left
      by_cases e1 : k = 127
      · subst e1
        rcases Nat.lt_or_ge i 126 with h3 | h3
        · exact lt_trans ((ih 126 (by omega) (by omega) i h3).resolve_right (by omega)) a1
        · rw [show i = 126 by omega]; exact a1
      by_cases e2 : k = 128
      · subst e2
        rcases Nat.lt_or_ge i 127 with h3 | h3
        · exact lt_trans ((ih 127 (by omega) (by omega) i h3).resolve_right (by omega)) a2
        · rw [show i = 127 by omega]; exact a2
      by_cases e3 : k = 130
      · subst e3
        rcases Nat.lt_or_ge i 129 with h3 | h3
        · exact lt_trans ((ih 129 (by omega) (by omega) i h3).resolve_right (by omega)) a3
        · rw [show i = 129 by omega]; exact a3
      by_cases e4 : k = 131
      · subst e4
        rcases Nat.lt_or_ge i 130 with h3 | h3
        · exact lt_trans ((ih 130 (by omega) (by omega) i h3).resolve_right (by omega)) a4
        · rw [show i = 130 by omega]; exact a4
      exact lt_trans ((ih k (by omega) (by omega) i h).resolve_right (by omega))
        (hk.resolve_right (by omega))
    · obtain rfl : i = k := by omega
      rcases hk with hk | hk | hk
      · exact Or.inl hk
      · omega
      · omega

/-- The comparisons of the table with `x` in the region of a pair `k`, `k + 1` in the wrong order. -/
def Plus.near (k : Nat) (o o' : Ordering) (i : Nat) : Ordering :=
  if i < k then .lt else if i = k then o else if i = k + 1 then o' else .gt

theorem Plus.search_near (k : Nat) (o o' : Ordering) {x : ℚ}
    (h : ∀ i < 159, cmp (fin (rawV 5 i)) (fin x) = near k o o' i) (v : Search) :
    binarySearch v (rawTable 5) (fin x) =
      match v with
      | .earlyExit => binarySearchLoop (fun i => if i < 159 then .ok (near k o o' i) else
          .error .indexOutOfBounds) 160 0 159
      | .branchless => branchlessSearch (fun i => if i < 159 then .ok (near k o o' i) else
          .error .indexOutOfBounds) 159 := by
  have hlen : (rawTable 5).length = 159 := by decide +kernel
  have hc : (fun i => do
      let est ← index (rawTable 5) i
      unwrap (F64.partialCmp est (fin x))) = fun i => if i < 159 then
        (.ok (near k o o' i) : R Ordering) else .error .indexOutOfBounds := by
    funext i
    by_cases hi : i < 159
    · rw [if_pos hi, index_ok (by omega), ok_bind]
      have h1 := table5_eq i hi
      rw [List.getD_eq_getElem _ _ (by omega)] at h1
      rw [h1, partialCmp_eq (by simp) (by simp), h i hi]
      rfl
    · rw [if_neg hi, index, List.getElem?_eq_none (by omega)]
      rfl
  unfold binarySearch
  simp only [hc, hlen]
  rfl

theorem Plus.cmp_fin_lt {a b : ℚ} (h : a < b) : cmp (fin a) (fin b) = .lt :=
  (cmp_key (by simp) (by simp)).1.2 (by simpa [F64.key] using h)

theorem Plus.cmp_fin_gt {a b : ℚ} (h : b < a) : cmp (fin a) (fin b) = .gt :=
  (cmp_key (by simp) (by simp)).2.2 (by simpa [F64.key] using h)

theorem Plus.cmp_near {k : Nat} (hk : k = 127 ∨ k = 130) {x : ℚ} (h1 : rawV 5 (k + 1) ≤ x)
    (h2 : x ≤ rawV 5 k) : ∀ i < 159, cmp (fin (rawV 5 i)) (fin x) =
      near k (cmp (fin (rawV 5 k)) (fin x)) (cmp (fin (rawV 5 (k + 1))) (fin x)) i := by
  intro i hi
  unfold near
  split
  · rename_i h
    exact cmp_fin_lt (lt_of_lt_of_le ((table5_order i hi (k + 1) (by omega) (by omega)).resolve_right
      (by omega)) h1)
  · split
    · rename_i h; rw [h]
    · split
      · rename_i h; rw [h]
      · exact cmp_fin_gt (lt_of_le_of_lt h2 ((table5_order k (by omega) i hi (by omega)).resolve_right
          (by omega)))

/-- For precision 5 the two searches end at the same place, except for one raw estimate. -/
theorem Plus.search5 {x : ℚ} (hx : x ≠ rawV 5 127) (v v' : Search) : ∃ r r',
    binarySearch v (rawTable 5) (fin x) = .ok r ∧ binarySearch v' (rawTable 5) (fin x) = .ok r' ∧
      pos r = pos r' := by
  by_cases hin : ∃ k, (k = 127 ∨ k = 130) ∧ rawV 5 (k + 1) ≤ x ∧ x ≤ rawV 5 k
  · obtain ⟨k, hk, h1, h2⟩ := hin
    have hs := search_near k _ _ (cmp_near hk h1 h2)
    rw [hs v, hs v']
    have e1 : k = 127 → cmp (fin (rawV 5 k)) (fin x) = .gt := by
      rintro rfl
      exact cmp_fin_gt (lt_of_le_of_ne h2 hx)
    have e2 : cmp (fin (rawV 5 k)) (fin x) = .gt ∨ cmp (fin (rawV 5 k)) (fin x) = .eq := by
      rcases h2.lt_or_eq with h | h
      · exact Or.inl (cmp_fin_gt h)
      · right; rw [h]; simp [F64.cmp, partialCmp]
    have e3 : cmp (fin (rawV 5 (k + 1))) (fin x) = .lt ∨ cmp (fin (rawV 5 (k + 1))) (fin x) = .eq := by
      rcases h1.lt_or_eq with h | h
      · exact Or.inl (cmp_fin_lt h)
      · right; rw [h]; simp [F64.cmp, partialCmp]
    generalize cmp (fin (rawV 5 k)) (fin x) = o at *
    generalize cmp (fin (rawV 5 (k + 1))) (fin x) = o' at *
    clear hs h1 h2
    have key : ∀ k o o' v v', (k = 127 ∨ k = 130) → (k = 127 → o = .gt) → (o = .gt ∨ o = .eq) →
        (o' = .lt ∨ o' = .eq) → ∃ r r', (match v with
          | Search.earlyExit => binarySearchLoop (fun i => if i < 159 then .ok (near k o o' i) else
            .error .indexOutOfBounds) 160 0 159
          | .branchless => branchlessSearch (fun i => if i < 159 then .ok (near k o o' i) else
            .error .indexOutOfBounds) 159) = .ok r ∧ (match v' with
          | Search.earlyExit => binarySearchLoop (fun i => if i < 159 then .ok (near k o o' i) else
            .error .indexOutOfBounds) 160 0 159
          | .branchless => branchlessSearch (fun i => if i < 159 then .ok (near k o o' i) else
            .error .indexOutOfBounds) 159) = .ok r' ∧ pos r = pos r' := by
      rintro k o o' v v' (rfl | rfl) h1 (rfl | rfl) (rfl | rfl) <;> cases v <;> cases v' <;>
        first
        | exact ⟨_, _, rfl, rfl, rfl⟩
        | (exfalso; revert h1; simp)
    exact key k o o' v v' hk e1 e2 e3
  · have hl : (rawTable 5).length = 159 := by decide +kernel
    have hnn := rawTable_ne_nan (p := 5) (by norm_num) (by norm_num)
    have hord : ∀ i j, i < j → j < (rawTable 5).length →
        cmp ((rawTable 5).getD i nan) (fin x) ≠ .lt → cmp ((rawTable 5).getD j nan) (fin x) = .gt := by
      intro i j hij hj h
      rw [hl] at hj
      rw [table5_eq i (by omega)] at h
      rw [table5_eq j hj]
      have h1 : x ≤ rawV 5 i := by
        by_contra hc
        exact h (cmp_fin_lt (not_le.1 hc))
      apply cmp_fin_gt
      rcases table5_order i (by omega) j hj hij with h2 | ⟨rfl, rfl⟩ | ⟨rfl, rfl⟩
      · exact lt_of_le_of_lt h1 h2
      · by_contra hc
        exact hin ⟨127, Or.inl rfl, not_lt.1 hc, h1⟩
      · by_contra hc
        exact hin ⟨130, Or.inr rfl, not_lt.1 hc, h1⟩
    obtain ⟨r, e1, e2⟩ := binarySearch_ok v hnn (raw := fin x) (by simp)
    obtain ⟨r', e1', e2'⟩ := binarySearch_ok v' hnn (raw := fin x) (by simp)
    exact ⟨r, r', e1, e1', e2.unique hord e2'⟩

theorem biasOf_search5 (v v' : Search) {x : ℚ} (hx : x ≠ Plus.rawV 5 127) :
    Plus.biasOf v 5 (fin x) = Plus.biasOf v' 5 (fin x) := by
  obtain ⟨r, r', h1, h2, h3⟩ := Plus.search5 hx v v'
  have hl1 : Constants.RAW_ESTIMATE_DATA.length = 15 := by
    have := congrArg List.length Plus.raw_lengths; simpa using this
  have hl2 : Constants.BIAS_DATA.length = 15 := by
    have := congrArg List.length Plus.bias_lengths; simpa using this
  have key : ∀ w : Search, Plus.estimateBias { Cfg.debug64 with search := w } 5 (fin x) =
      Plus.interpolateBias Cfg.debug64 (Plus.binarySearch w) (Plus.rawTable 5) (Plus.biasTable 5) (fin x) := by
    intro w
    rw [Plus.estimateBias, show Plus.MIN_PRECISION = 4 from rfl, subU8_ok _ (by norm_num) (by norm_num),
      ok_bind, index_ok (by omega), ok_bind, index_ok (by omega), ok_bind, Plus.rawTable,
      Plus.biasTable, List.getD_eq_getElem _ _ (by omega), List.getD_eq_getElem _ _ (by omega)]
    rfl
  rw [Plus.biasOf, Plus.biasOf, key, key, Plus.interpolateBias_congr h1 h2 h3]

/-- **C49, the true part, for programs.** Programs without sketches of precision 6 give the same
results with both versions of the standard library.  At precision 5 the searches differ for the raw
estimate 128.3464 only, and no 32 registers have it (`rawQ_ne`).
Missing for the full claim: precision 6, for which it is false (`C49_refuted`). -/
theorem C49_search_partial (h : Supported cfg c ops) (v : Search)
    (h6 : ∀ p b, .new p b ∈ ops → p ≠ 6) :
    outputs (Plus.api { cfg with search := v } ln c) ords ops =
      outputs (Plus.api cfg ln c) ords' ops := by
  rw [plus_refines (cfg := { cfg with search := v }) h, plus_refines h]
  refine congrArg _ (expectedFrom_congr 64 18 (fun p => p ≠ 6) ?_ ops [] h6 (by simp))
  intro p S hp1 hp2 hp hS
  have hM : Regs p (regs 64 p S) := regs_regs S (by omega)
  have hb : Plus.biasOf v p (rawEstimate p (regs 64 p S)) =
      Plus.biasOf cfg.search p (rawEstimate p (regs 64 p S)) := by
    rw [hM.raw_eq hp1 hp2]
    by_cases h5 : p = 5
    · subst h5
      refine biasOf_search5 v cfg.search ?_
      rw [show Plus.rawV 5 127 = (ofDec 1283464 4).val by decide +kernel]
      exact rawQ_ne hM
    · exact biasOf_search v cfg.search hp1 hp2 h5 hp (by simp)
  simp only [plusCount, plusDense, hb]

/-- `demoPlus` creates sketches of precisions 4 and 18 (and fails to create one of precision 19); with
one of precision 5 the condition still holds. -/
example : Supported Cfg.debug64 (noCodec Nat) (.new 5 (fun _ => 0#64) :: demoPlus) ∧
    ∀ p b, .new p b ∈ (.new 5 (fun _ => 0#64) :: demoPlus : List (Op Nat)) → p ≠ 6 := by
  refine ⟨supported64 rfl _ (by simp [demoPlus]), ?_⟩
  intro p b h
  simp only [demoPlus, List.mem_cons, List.not_mem_nil, or_false, reduceCtorEq, false_or,
    Op.new.injEq] at h
  omega

/-- A program with one sketch of precision 6, whose registers are 35 times 2, 27 times 3, 4 and 6. -/
def skewProgram : List (Op Nat) :=
  .new 6 (fun v => BitVec.ofNat 64 v) :: (List.range 64).map fun j => .insert .insert 0
    (j * 2 ^ 58 + 2 ^ (58 - if j < 35 then 2 else if j < 62 then 3 else if j = 62 then 4 else 6))

/-- Its registers. -/
def skewRegs : List Nat := List.replicate 35 2 ++ List.replicate 27 3 ++ [4, 6]

set_option maxRecDepth 10000 in
theorem skewProgram_contents : ∃ a, (contents 64 18 skewProgram)[0]? = some a ∧ a.p = 6 ∧
    regs 64 6 a.S = skewRegs ∧ ¬ fitsSparse 6 a.S :=
  have big : ∀ S : Finset Nat, (codes 6 S).card = 64 → ¬ fitsSparse 6 S := by
    intro S hS h
    have := (card_le_encSize (codes 6 S)).trans h
    rw [hS] at this
    revert this; decide
  ⟨_, rfl, rfl, by decide +kernel, big _ (by decide +kernel)⟩

/-- **C49 is false for precision 6.** The same program returns different counts depending on the
version of the standard library (about 238.1 and 236.7). -/
theorem C49_refuted (cfg : Cfg) (h64 : cfg.usizeBits = 64) :
    ∃ y y' : ℚ, later (Plus.api { cfg with search := .earlyExit } ln (noCodec Nat)) ords skewProgram
        [.count 0] = .ok [.count (fin y)] ∧
      later (Plus.api { cfg with search := .branchless } ln (noCodec Nat)) ords skewProgram
        [.count 0] = .ok [.count (fin y')] ∧ 1.4 < y - y' := by
  obtain ⟨a, h1, h2, h3, h4⟩ := skewProgram_contents
  have hs : ∀ v, Supported { cfg with search := v } (noCodec Nat) skewProgram :=
    fun v => supported64 h64 _ (by simp [skewProgram])
  have key : ∀ v, plusDense ln (Plus.biasOf v 6) 6 skewRegs =
      sub (rawEstimate 6 skewRegs)
        (Plus.biasOf v 6 (rawEstimate 6 skewRegs)) := by
    intro v
    rw [plusDense, if_neg (by rintro ⟨h, _⟩; revert h; decide), if_pos]
    decide +kernel
  have val : ∃ y y' : ℚ, sub (rawEstimate 6 skewRegs) (Plus.biasOf .earlyExit 6 (rawEstimate 6 skewRegs)) = fin y ∧
      sub (rawEstimate 6 skewRegs) (Plus.biasOf .branchless 6 (rawEstimate 6 skewRegs)) = fin y' ∧ 1.4 < y - y' :=
    ⟨(sub (rawEstimate 6 skewRegs) (Plus.biasOf .earlyExit 6 (rawEstimate 6 skewRegs))).val,
      (sub (rawEstimate 6 skewRegs) (Plus.biasOf .branchless 6 (rawEstimate 6 skewRegs))).val,
      by decide +kernel, by decide +kernel, by decide +kernel⟩
  obtain ⟨y, y', v1, v2, v3⟩ := val
  refine ⟨y, y', ?_, ?_, v3⟩
  · rw [plus_count_val (hs _) h1, h2, plusCount, if_neg h4, h3, key, v1]
  · rw [plus_count_val (hs _) h1, h2, plusCount, if_neg h4, h3, key, v2]

end HLL
