import Verif.Props.Tails

/-!
# Union bounds along a growing set of values

A sketch whose set of values grows passes through a chain of sets.  An event is checked at every set
with at most `L` values, and at the first and the last set of every *cell* above: two numbers are in the
same cell if they have the same length in binary and agree in the first eight digits.
-/

namespace HLL
open Spec F64

variable {N : Nat}

theorem fraction_exists {α : Type} (T : Finset α) (P : α → (Fin N → Fin (2 ^ 64)) → Prop) {a : ℝ}
    (h : ∀ x ∈ T, fraction (P x) ≤ a) :
    fraction (fun f => ∃ x ∈ T, P x f) ≤ T.card * a := by
  classical
  induction T using Finset.induction_on with
  | empty =>
    rw [fraction_eq_mean]
    simp [mean]
  | insert x T hx ih =>
    have h1 := ih fun y hy => h y (Finset.mem_insert_of_mem hy)
    have h2 := h x (Finset.mem_insert_self x T)
    have h3 : fraction (fun f => ∃ y ∈ insert x T, P y f) ≤
        fraction (fun f => P x f ∨ ∃ y ∈ T, P y f) :=
      fraction_mono fun f hf => by
        obtain ⟨y, hy, hyf⟩ := hf
        rcases Finset.mem_insert.1 hy with rfl | hy
        · exact .inl hyf
        · exact .inr ⟨y, hy, hyf⟩
    rw [Finset.card_insert_of_notMem hx]
    push_cast
    refine h3.trans ((fraction_or (P x) fun f => ∃ y ∈ T, P y f).trans ((add_le_add h2 h1).trans ?_))
    linarith

/-- The number of binary digits of `n`, less one, and its first eight digits. -/
def cell (n : Nat) : Nat × Nat := (Nat.log 2 n, n / 2 ^ (Nat.log 2 n - 7))

theorem cell_near {a b : Nat} (ha : 128 ≤ a) (h : cell a = cell b) : 128 * b ≤ 129 * a := by
  simp only [cell, Prod.mk.injEq] at h
  obtain ⟨h1, h2⟩ := h
  rw [← h1] at h2
  have h7 : 7 ≤ Nat.log 2 a := (Nat.le_log_iff_pow_le (by norm_num) (by omega)).2 (by norm_num; omega)
  have h8 : 2 ^ Nat.log 2 a ≤ a := Nat.pow_log_le_self 2 (by omega)
  obtain ⟨s, hs⟩ : ∃ s, Nat.log 2 a = s + 7 := ⟨_, (Nat.sub_add_cancel h7).symm⟩
  rw [hs, Nat.add_sub_cancel] at h2
  rw [hs, pow_add] at h8
  have hpos : 0 < 2 ^ s := by positivity
  have h9 := Nat.div_add_mod b (2 ^ s)
  have h10 := Nat.mod_lt b hpos
  have h11 := Nat.div_mul_le_self a (2 ^ s)
  rw [← h2] at h9
  rw [mul_comm] at h11
  norm_num at h8
  omega

theorem cell_mem {n l : Nat} (h1 : 2 ^ 10 ≤ n) (h2 : n < 2 ^ l) :
    cell n ∈ Finset.Ico 10 l ×ˢ Finset.Ico 128 256 := by
  have h0 : n ≠ 0 := by intro h; subst h; norm_num at h1
  have a1 : 10 ≤ Nat.log 2 n := (Nat.le_log_iff_pow_le (by norm_num) h0).2 h1
  have a2 : Nat.log 2 n < l := (Nat.log_lt_iff_lt_pow (by norm_num) h0).2 h2
  have a3 : 2 ^ Nat.log 2 n ≤ n := Nat.pow_log_le_self 2 h0
  have a4 : n < 2 ^ (Nat.log 2 n + 1) := Nat.lt_pow_succ_log_self (by norm_num) n
  simp only [cell, Finset.mem_product, Finset.mem_Ico]
  obtain ⟨s, hs⟩ : ∃ s, Nat.log 2 n = s + 7 := ⟨Nat.log 2 n - 7, by omega⟩
  rw [hs] at a1 a2 a3 a4 ⊢
  rw [Nat.add_sub_cancel]
  refine ⟨⟨a1, a2⟩, ?_, ?_⟩
  · rw [Nat.le_div_iff_mul_le (by positivity)]
    rw [pow_add] at a3; omega
  · rw [Nat.div_lt_iff_lt_mul (by positivity)]
    rw [show s + 7 + 1 = s + 8 from rfl, pow_add] at a4; omega

variable {C : Finset (Finset (Fin N))}

theorem chain_eq (hC : ∀ A ∈ C, ∀ B ∈ C, A ⊆ B ∨ B ⊆ A) {A B : Finset (Fin N)} (hA : A ∈ C)
    (hB : B ∈ C) (h : A.card = B.card) : A = B := by
  rcases hC A hA B hB with h1 | h1
  · exact Finset.eq_of_subset_of_card_le h1 h.ge
  · exact (Finset.eq_of_subset_of_card_le h1 h.le).symm

theorem chain_sub (hC : ∀ A ∈ C, ∀ B ∈ C, A ⊆ B ∨ B ⊆ A) {A B : Finset (Fin N)} (hA : A ∈ C)
    (hB : B ∈ C) (h : A.card ≤ B.card) : A ⊆ B := by
  rcases hC A hA B hB with h1 | h1
  · exact h1
  · exact (Finset.eq_of_subset_of_card_le h1 h).ge

/-- The union bound along a chain `C` of sets.  `bad V` has to be excluded for all sets of the chain.  For
the larger sets it is enough to exclude `raw` for two sets that enclose `V` and differ little. -/
theorem chain_union (hC : ∀ A ∈ C, ∀ B ∈ C, A ⊆ B ∨ B ⊆ A) {L l : Nat} (hL : 2 ^ 10 ≤ L)
    (hl : ∀ A ∈ C, A.card < 2 ^ l) (hl10 : 10 ≤ l)
    {bad raw : Finset (Fin N) → (Fin N → Fin (2 ^ 64)) → Prop} {a b : ℝ} (ha0 : 0 ≤ a) (hb0 : 0 ≤ b)
    (ha : ∀ V ∈ C, V.card ≤ L → fraction (bad V) ≤ a)
    (hb : ∀ V ∈ C, L < V.card → fraction (raw V) ≤ b)
    (hstep : ∀ h, ∀ A ∈ C, ∀ V, ∀ B ∈ C, L < A.card → A ⊆ V → V ⊆ B → 128 * B.card ≤ 129 * A.card →
      ¬ raw A h → ¬ raw B h → ¬ bad V h) :
    fraction (fun h => ∃ V ∈ C, bad V h) ≤ (L + 1) * a + 256 * (l - 10) * b := by
  classical
  let low := C.filter fun V => V.card ≤ L
  let high := C.filter fun V => L < V.card
  let mins := high.filter fun A => ∀ B ∈ high, cell B.card = cell A.card → A.card ≤ B.card
  let maxs := high.filter fun A => ∀ B ∈ high, cell B.card = cell A.card → B.card ≤ A.card
  let cells := Finset.Ico 10 l ×ˢ Finset.Ico 128 256
  have hhigh : ∀ {A}, A ∈ high → A ∈ C ∧ L < A.card := fun h => Finset.mem_filter.1 h
  have hcell : ∀ A ∈ high, cell A.card ∈ cells := fun A hA =>
    cell_mem (hL.trans (hhigh hA).2.le) (hl A (hhigh hA).1)
  have hcells : cells.card = (l - 10) * 128 := by simp [cells]
  have c1 : low.card ≤ L + 1 := by
    have := Finset.card_le_card_of_injOn (s := low) (t := Finset.range (L + 1)) Finset.card
      (fun A hA => Finset.mem_range.2 (Nat.lt_succ_of_le (Finset.mem_filter.1 hA).2))
      (fun A hA B hB e => chain_eq hC (Finset.mem_filter.1 hA).1 (Finset.mem_filter.1 hB).1 e)
    rwa [Finset.card_range] at this
  have c2 : mins.card ≤ (l - 10) * 128 := by
    rw [← hcells]
    refine Finset.card_le_card_of_injOn (fun A => cell A.card)
      (fun A hA => hcell A (Finset.mem_filter.1 hA).1) fun A hA B hB e => ?_
    obtain ⟨a1, a2⟩ := Finset.mem_filter.1 hA
    obtain ⟨b1, b2⟩ := Finset.mem_filter.1 hB
    exact chain_eq hC (hhigh a1).1 (hhigh b1).1 (le_antisymm (a2 B b1 e.symm) (b2 A a1 e))
  have c3 : maxs.card ≤ (l - 10) * 128 := by
    rw [← hcells]
    refine Finset.card_le_card_of_injOn (fun A => cell A.card)
      (fun A hA => hcell A (Finset.mem_filter.1 hA).1) fun A hA B hB e => ?_
    obtain ⟨a1, a2⟩ := Finset.mem_filter.1 hA
    obtain ⟨b1, b2⟩ := Finset.mem_filter.1 hB
    exact chain_eq hC (hhigh a1).1 (hhigh b1).1 (le_antisymm (b2 A a1 e) (a2 B b1 e.symm))
  have f1 := fraction_exists low bad (a := a) fun V hV =>
    ha V (Finset.mem_filter.1 hV).1 (Finset.mem_filter.1 hV).2
  have f2 := fraction_exists mins raw (a := b) fun V hV =>
    hb V (hhigh (Finset.mem_filter.1 hV).1).1 (hhigh (Finset.mem_filter.1 hV).1).2
  have f3 := fraction_exists maxs raw (a := b) fun V hV =>
    hb V (hhigh (Finset.mem_filter.1 hV).1).1 (hhigh (Finset.mem_filter.1 hV).1).2
  have key : fraction (fun h => ∃ V ∈ C, bad V h) ≤
      fraction (fun h => (∃ V ∈ low, bad V h) ∨ ((∃ V ∈ mins, raw V h) ∨ ∃ V ∈ maxs, raw V h)) := by
    refine fraction_mono fun h ⟨V, hV, hbad⟩ => ?_
    rcases Nat.lt_or_ge L V.card with hc | hc
    · right
      by_contra hcon
      rw [not_or] at hcon
      have hVh : V ∈ high := Finset.mem_filter.2 ⟨hV, hc⟩
      let same := high.filter fun B => cell B.card = cell V.card
      have hVs : V ∈ same := Finset.mem_filter.2 ⟨hVh, rfl⟩
      obtain ⟨A, hA, hA'⟩ := Finset.exists_min_image same Finset.card ⟨V, hVs⟩
      obtain ⟨B, hB, hB'⟩ := Finset.exists_max_image same Finset.card ⟨V, hVs⟩
      obtain ⟨a1, a2⟩ := Finset.mem_filter.1 hA
      obtain ⟨b1, b2⟩ := Finset.mem_filter.1 hB
      have hAm : A ∈ mins := Finset.mem_filter.2 ⟨a1, fun D hD e =>
        hA' D (Finset.mem_filter.2 ⟨hD, e.trans a2⟩)⟩
      have hBm : B ∈ maxs := Finset.mem_filter.2 ⟨b1, fun D hD e =>
        hB' D (Finset.mem_filter.2 ⟨hD, e.trans b2⟩)⟩
      refine hstep h A (hhigh a1).1 V B (hhigh b1).1 (hhigh a1).2
        (chain_sub hC (hhigh a1).1 hV (hA' V hVs)) (chain_sub hC hV (hhigh b1).1 (hB' V hVs))
        (cell_near ?_ (a2.trans b2.symm)) (fun hr => hcon.1 ⟨A, hAm, hr⟩) (fun hr => hcon.2 ⟨B, hBm, hr⟩) hbad
      have := (hhigh a1).2
      norm_num at hL
      omega
    · exact .inl ⟨V, Finset.mem_filter.2 ⟨hV, hc⟩, hbad⟩
  have g1 : (low.card : ℝ) * a ≤ (L + 1) * a := by gcongr; exact_mod_cast c1
  have hl' : (((l - 10) * 128 : ℕ) : ℝ) = 128 * (l - 10) := by push_cast [Nat.cast_sub hl10]; ring
  have g2 : (mins.card : ℝ) * b ≤ 128 * (l - 10) * b := by rw [← hl']; gcongr
  have g3 : (maxs.card : ℝ) * b ≤ 128 * (l - 10) * b := by rw [← hl']; gcongr
  have k1 := fraction_or (fun h => ∃ V ∈ low, bad V h)
    (fun h => (∃ V ∈ mins, raw V h) ∨ ∃ V ∈ maxs, raw V h)
  have k2 := fraction_or (fun h => ∃ V ∈ mins, raw V h) (fun h => ∃ V ∈ maxs, raw V h)
  linarith

/-- A sketch keeps its precision and only gains values. -/
theorem receive_mono (maxP : Nat) {st : List (Nat × Finset (Fin N))} {i p : Nat} {V : Finset (Fin N)}
    (h : st[i]? = some (p, V)) (op : Op (Fin N)) :
    ∃ W, (receive maxP st op)[i]? = some (p, W) ∧ V ⊆ W := by
  have hi : i < st.length := (List.getElem?_eq_some_iff.1 h).1
  have app : ∀ s, (st ++ [s])[i]? = some (p, V) := fun s => by rw [List.getElem?_append_left hi, h]
  cases op with
  | new q b => simp only [receive]; split <;> exact ⟨V, by first | exact app _ | exact h, subset_rfl⟩
  | clone j => simp only [receive]; split <;> exact ⟨V, by first | exact app _ | exact h, subset_rfl⟩
  | reload j => simp only [receive]; split <;> exact ⟨V, by first | exact app _ | exact h, subset_rfl⟩
  | count j => exact ⟨V, h, subset_rfl⟩
  | insert k j v =>
    simp only [receive]
    split
    case h_2 => exact ⟨V, h, subset_rfl⟩
    case h_1 s hs =>
      by_cases hij : j = i
      · subst hij
        rw [h] at hs; cases hs
        exact ⟨insert v V, by rw [List.getElem?_set_self hi], Finset.subset_insert _ _⟩
      · exact ⟨V, by rw [List.getElem?_set_ne hij, h], subset_rfl⟩
  | merge j k =>
    simp only [receive]
    split
    case h_2 => exact ⟨V, h, subset_rfl⟩
    case h_1 s t hs ht =>
      split
      · by_cases hij : j = i
        · subst hij
          rw [h] at hs; cases hs
          exact ⟨V ∪ t.2, by rw [List.getElem?_set_self hi], Finset.subset_union_left⟩
        · exact ⟨V, by rw [List.getElem?_set_ne hij, h], subset_rfl⟩
      · exact ⟨V, h, subset_rfl⟩

theorem received_mono (maxP : Nat) (post : List (Op (Fin N))) {st : List (Nat × Finset (Fin N))} {i p : Nat}
    {V : Finset (Fin N)} (h : st[i]? = some (p, V)) :
    ∃ W, (post.foldl (receive maxP) st)[i]? = some (p, W) ∧ V ⊆ W := by
  induction post generalizing st V with
  | nil => exact ⟨V, h, subset_rfl⟩
  | cons op post ih =>
    obtain ⟨W, h1, h2⟩ := receive_mono maxP h op
    obtain ⟨X, h3, h4⟩ := ih h1
    exact ⟨X, h3, h2.trans h4⟩

theorem received_take (maxP : Nat) (ops : List (Op (Fin N))) {j k i p : Nat} (hjk : j ≤ k)
    {V : Finset (Fin N)} (h : (received maxP (ops.take j))[i]? = some (p, V)) :
    ∃ W, (received maxP (ops.take k))[i]? = some (p, W) ∧ V ⊆ W := by
  have e : ops.take k = ops.take j ++ (ops.take k).drop j := by
    conv_lhs => rw [← List.take_append_drop j (ops.take k)]
    rw [List.take_take, min_eq_left hjk]
  rw [received, e, List.foldl_append]
  exact received_mono maxP _ h

/-- The sets of values that sketch `i` has in the course of a program. -/
noncomputable def stages (maxP : Nat) (ops : List (Op (Fin N))) (i p : Nat) : Finset (Finset (Fin N)) := by
  classical
  exact Finset.univ.filter fun V => ∃ k, (received maxP (ops.take k))[i]? = some (p, V)

theorem mem_stages {maxP i p : Nat} {ops : List (Op (Fin N))} {V : Finset (Fin N)} :
    V ∈ stages maxP ops i p ↔ ∃ k, (received maxP (ops.take k))[i]? = some (p, V) := by
  simp [stages]

theorem stages_chain (maxP : Nat) (ops : List (Op (Fin N))) (i p : Nat) :
    ∀ A ∈ stages maxP ops i p, ∀ B ∈ stages maxP ops i p, A ⊆ B ∨ B ⊆ A := by
  intro A hA B hB
  obtain ⟨j, hj⟩ := mem_stages.1 hA
  obtain ⟨k, hk⟩ := mem_stages.1 hB
  rcases Nat.le_total j k with h | h
  · obtain ⟨W, e, hs⟩ := received_take maxP ops h hj
    rw [hk] at e; cases e
    exact .inl hs
  · obtain ⟨W, e, hs⟩ := received_take maxP ops h hk
    rw [hj] at e; cases e
    exact .inr hs

end HLL
