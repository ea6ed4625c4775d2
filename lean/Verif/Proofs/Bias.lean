import Verif.Model.Plus
import Verif.Proofs.Prim
import Mathlib.Data.List.GetD

/-! # `estimate_bias` never panics and interpolates between bracketing table points -/

namespace HLL
namespace F64

theorem round_ne_nan {K : Type*} [Field K] [LinearOrder K] [FloorRing K] (z : Bool) (x : K) :
    round z x ≠ nan := by
  unfold round; split
  · simp
  · split
    · split <;> simp
    · simp

/-- Comparison of doubles that are not NaN. -/
def cmp (x y : F64) : Ordering := (partialCmp x y).getD .eq

theorem partialCmp_eq {x y : F64} (hx : x ≠ nan) (hy : y ≠ nan) :
    partialCmp x y = some (cmp x y) := by
  unfold cmp
  cases x <;> cases y <;> simp_all [partialCmp]

theorem partialCmp_nan_right (x : F64) : partialCmp x nan = none := by cases x <;> rfl
theorem partialCmp_nan_left (x : F64) : partialCmp nan x = none := rfl

theorem ne_nan_of_le {x y : F64} (h : le x y = true) : x ≠ nan ∧ y ≠ nan := by
  constructor
  · rintro rfl; simp [le, partialCmp_nan_left] at h
  · rintro rfl; simp [le, partialCmp_nan_right] at h

theorem le_iff {x y : F64} (hx : x ≠ nan) (hy : y ≠ nan) :
    le x y = true ↔ cmp x y ≠ .gt := by
  unfold le
  rw [partialCmp_eq hx hy]
  cases cmp x y <;> simp

theorem cmp_swap (x y : F64) : cmp y x = (cmp x y).swap := by
  unfold cmp
  cases x <;> cases y <;> simp [partialCmp]
  · rename_i a b; cases a <;> cases b <;> simp
  all_goals first
    | (split <;> rfl)
    | (simp only [val]
       rename_i a b
       rcases lt_trichotomy a b with h | h | h
       · simp [h, h.not_gt, h.ne, h.ne']
       · simp [h]
       · simp [h, h.not_gt, h.ne, h.ne'])
    | (simp only [val]
       rename_i a
       rcases lt_trichotomy a 0 with h | h | h
       · simp [h, h.not_gt, h.ne, h.ne']
       · simp [h]
       · simp [h, h.not_gt, h.ne, h.ne'])

end F64

namespace Plus
open F64

/-- What a binary search over positions `0..n` with comparison results `c` promises even if the
table is not sorted: the found element compares equal, or the insertion point lies between a smaller
and a larger element. -/
def Bracket (c : Nat → Ordering) (n : Nat) : Nat ⊕ Nat → Prop
  | .inl m => m < n ∧ c m = .eq
  | .inr k => k ≤ n ∧ (k = 0 ∨ c (k - 1) = .lt) ∧ (k = n ∨ c k = .gt)

/-- The index in the result of a search. -/
def pos : Nat ⊕ Nat → Nat
  | .inl i => i
  | .inr i => i

theorem binarySearchLoop_ok {cmp : Nat → R Ordering} {c : Nat → Ordering} {n : Nat}
    (h : ∀ i < n, cmp i = .ok (c i)) : ∀ (fuel left right : Nat), right - left < fuel →
    left ≤ right → right ≤ n → (left = 0 ∨ c (left - 1) = .lt) → (right = n ∨ c right = .gt) →
    ∃ r, binarySearchLoop cmp fuel left right = .ok r ∧ Bracket c n r := by
  intro fuel
  induction fuel with
  | zero => intro left right hf; omega
  | succ fuel ih =>
    intro left right hf hlr hrn hl hr
    rw [binarySearchLoop]
    by_cases hlt : left < right
    · rw [if_pos hlt]
      have hm : left + (right - left) / 2 < right := by omega
      simp only [h _ (lt_of_lt_of_le hm hrn), ok_bind]
      cases hc : c (left + (right - left) / 2) with
      | lt => exact ih _ _ (by omega) (by omega) hrn (Or.inr (by simpa using hc)) hr
      | gt => exact ih _ _ (by omega) (by omega) (by omega) hl (Or.inr hc)
      | eq => exact ⟨_, rfl, by omega, hc⟩
    · rw [if_neg hlt]
      have : left = right := by omega
      subst this
      exact ⟨_, rfl, hrn, hl, hr⟩

/-- The loop without early exit ends at a position that is 0 or not above the target, while the next
position is the end or above the target. -/
theorem branchlessLoop_ok {cmp : Nat → R Ordering} {c : Nat → Ordering} {n : Nat}
    (h : ∀ i < n, cmp i = .ok (c i)) : ∀ (fuel size base e : Nat), size ≤ fuel → 1 ≤ size →
    base < e → e ≤ base + size →
    base + size ≤ e + 1 → base + size ≤ n → (base = 0 ∨ c base ≠ .gt) → (e = n ∨ c e = .gt) →
    ∃ b, branchlessLoop cmp fuel size base = .ok b ∧ b < n ∧ (b = 0 ∨ c b ≠ .gt) ∧
      (b + 1 = n ∨ c (b + 1) = .gt) := by
  intro fuel
  induction fuel with
  | zero => intro size base e hf h1; omega
  | succ fuel ih =>
    intro size base e hf h1 hbe hes hes2 hsn hb he
    rw [branchlessLoop]
    by_cases hlt : 1 < size
    · have hm : base + size / 2 < n := by omega
      rw [if_pos hlt]
      simp only [h _ hm, ok_bind]
      by_cases hc : c (base + size / 2) = .gt
      · rw [if_pos hc]
        exact ih _ _ (base + size / 2) (by omega) (by omega) (by omega) (by omega) (by omega)
          (by omega) hb
          (Or.inr hc)
      · rw [if_neg hc]
        by_cases hle : e ≤ base + size / 2
        · have h2 : e = base + size / 2 := by omega
          rcases he with he | he
          · omega
          · exact absurd (h2 ▸ he) hc
        · exact ih _ _ e (by omega) (by omega) (by omega) (by omega) (by omega) (by omega) (Or.inr hc) he
    · rw [if_neg hlt]
      have : e = base + 1 := by omega
      subst this
      exact ⟨_, rfl, by omega, hb, he⟩

theorem binarySearch_ok (v : Search) {es : List F64} (hes : ∀ e ∈ es, e ≠ nan) {raw : F64}
    (hraw : raw ≠ nan) :
    ∃ r, binarySearch v es raw = .ok r ∧
      Bracket (fun i => cmp (es.getD i nan) raw) es.length r := by
  have hc : ∀ i < es.length, (do
      let est ← index es i
      unwrap (F64.partialCmp est raw)) = .ok (cmp (es.getD i nan) raw) := by
    intro i hi
    simp only [index_ok hi, ok_bind]
    rw [partialCmp_eq (hes _ (List.getElem_mem hi)) hraw]
    simp [unwrap, hi]
  cases v with
  | earlyExit =>
    exact binarySearchLoop_ok hc _ _ _ (by omega) (by omega) le_rfl (Or.inl rfl) (Or.inl rfl)
  | branchless =>
    simp only [binarySearch, branchlessSearch]
    by_cases h0 : es.length = 0
    · rw [if_pos h0]
      exact ⟨_, rfl, by omega, Or.inl rfl, Or.inl h0.symm⟩
    · rw [if_neg h0]
      obtain ⟨b, hb, hbn, hb1, hb2⟩ := branchlessLoop_ok hc es.length es.length 0 es.length le_rfl
        (by omega) (by omega) (by omega) (by omega) (by omega) (Or.inl rfl) (Or.inl rfl)
      simp only [hb, ok_bind, hc b hbn]
      cases hcb : cmp (es.getD b nan) raw with
      | eq => exact ⟨_, rfl, hbn, hcb⟩
      | lt => exact ⟨_, rfl, by omega, Or.inr (by simpa using hcb), hb2⟩
      | gt =>
        have : b = 0 := hb1.resolve_right (not_not.2 hcb)
        exact ⟨_, rfl, by omega, Or.inl this, Or.inr hcb⟩

/-! ## The place found by the search grows with the target, even if the table is not sorted -/

/-- Comparison results `lt < eq < gt`. -/
def ordLe : Ordering → Ordering → Prop
  | .lt, _ => True
  | .eq, .lt => False
  | .eq, _ => True
  | .gt, .gt => True
  | .gt, _ => False

theorem binarySearchLoop_mono {cmp cmp' : Nat → R Ordering} {c c' : Nat → Ordering} {n : Nat}
    (h : ∀ i < n, cmp i = .ok (c i)) (h' : ∀ i < n, cmp' i = .ok (c' i)) (hc : ∀ i < n, ordLe (c' i) (c i)) :
    ∀ (fuel left right : Nat), right - left < fuel → left ≤ right → right ≤ n →
    ∃ r r', binarySearchLoop cmp fuel left right = .ok r ∧ binarySearchLoop cmp' fuel left right = .ok r' ∧
      left ≤ pos r ∧ pos r ≤ pos r' ∧ pos r' ≤ right := by
  have single : ∀ {cmp : Nat → R Ordering} {c : Nat → Ordering}, (∀ i < n, cmp i = .ok (c i)) →
      ∀ (fuel left right : Nat), right - left < fuel → left ≤ right → right ≤ n →
      ∃ r, binarySearchLoop cmp fuel left right = .ok r ∧ left ≤ pos r ∧ pos r ≤ right := by
    intro cmp c h fuel
    induction fuel with
    | zero => intro left right hf; omega
    | succ fuel ih =>
      intro left right hf hlr hrn
      rw [binarySearchLoop]
      by_cases hlt : left < right
      · rw [if_pos hlt]
        simp only [h (left + (right - left) / 2) (by omega), ok_bind]
        cases c (left + (right - left) / 2) with
        | lt =>
          obtain ⟨r, h1, h2, h3⟩ := ih (left + (right - left) / 2 + 1) right (by omega) (by omega) hrn
          exact ⟨r, h1, by omega, h3⟩
        | gt =>
          obtain ⟨r, h1, h2, h3⟩ := ih left (left + (right - left) / 2) (by omega) (by omega) (by omega)
          exact ⟨r, h1, h2, by omega⟩
        | eq => exact ⟨_, rfl, by simp only [pos]; omega, by simp only [pos]; omega⟩
      · rw [if_neg hlt]
        exact ⟨_, rfl, le_rfl, hlr⟩
  intro fuel
  induction fuel with
  | zero => intro left right hf; omega
  | succ fuel ih =>
    intro left right hf hlr hrn
    rw [binarySearchLoop, binarySearchLoop]
    by_cases hlt : left < right
    · rw [if_pos hlt, if_pos hlt]
      simp only [h (left + (right - left) / 2) (by omega), h' (left + (right - left) / 2) (by omega), ok_bind]
      have ho := hc (left + (right - left) / 2) (by omega)
      have lo := fun {cmp : Nat → R Ordering} {c : Nat → Ordering} (h : ∀ i < n, cmp i = .ok (c i)) =>
        single h fuel left (left + (right - left) / 2) (by omega) (by omega) (by omega)
      have hi := fun {cmp : Nat → R Ordering} {c : Nat → Ordering} (h : ∀ i < n, cmp i = .ok (c i)) =>
        single h fuel (left + (right - left) / 2 + 1) right (by omega) (by omega) hrn
      cases e : c (left + (right - left) / 2) <;> cases e' : c' (left + (right - left) / 2) <;>
        rw [e, e'] at ho <;> simp only [ordLe] at ho
      · obtain ⟨r, r', h1, h2, h3, h4, h5⟩ :=
          ih (left + (right - left) / 2 + 1) right (by omega) (by omega) hrn
        exact ⟨r, r', h1, h2, by omega, h4, h5⟩
      · obtain ⟨r', h1, h2, h3⟩ := hi h'
        exact ⟨.inl (left + (right - left) / 2), r', rfl, h1, by simp only [pos]; omega,
          show left + (right - left) / 2 ≤ pos r' by omega, h3⟩
      · exact ⟨_, _, rfl, rfl, by simp only [pos]; omega, le_rfl, by simp only [pos]; omega⟩
      · obtain ⟨r, h1, h2, h3⟩ := lo h
        obtain ⟨r', h1', h2', h3'⟩ := hi h'
        exact ⟨r, r', h1, h1', h2, by omega, h3'⟩
      · obtain ⟨r, h1, h2, h3⟩ := lo h
        exact ⟨r, .inl (left + (right - left) / 2), h1, rfl, h2,
          show pos r ≤ left + (right - left) / 2 by omega, by simp only [pos]; omega⟩
      · obtain ⟨r, r', h1, h2, h3, h4, h5⟩ :=
          ih left (left + (right - left) / 2) (by omega) (by omega) (by omega)
        exact ⟨r, r', h1, h2, h3, h4, by omega⟩
    · rw [if_neg hlt, if_neg hlt]
      exact ⟨_, _, rfl, rfl, le_rfl, le_rfl, hlr⟩

theorem branchlessLoop_mono {cmp cmp' : Nat → R Ordering} {c c' : Nat → Ordering} {n : Nat}
    (h : ∀ i < n, cmp i = .ok (c i)) (h' : ∀ i < n, cmp' i = .ok (c' i)) (hc : ∀ i < n, ordLe (c' i) (c i)) :
    ∀ (fuel size base : Nat), size ≤ fuel → 1 ≤ size → base + size ≤ n →
    ∃ b b', branchlessLoop cmp fuel size base = .ok b ∧ branchlessLoop cmp' fuel size base = .ok b' ∧
      base ≤ b ∧ b ≤ b' ∧ b' < base + size := by
  have single : ∀ {cmp : Nat → R Ordering} {c : Nat → Ordering}, (∀ i < n, cmp i = .ok (c i)) →
      ∀ (fuel size base : Nat), size ≤ fuel → 1 ≤ size → base + size ≤ n →
      ∃ b, branchlessLoop cmp fuel size base = .ok b ∧ base ≤ b ∧ b < base + size := by
    intro cmp c h fuel
    induction fuel with
    | zero => intro size base hf h1; omega
    | succ fuel ih =>
      intro size base hf h1 hn
      rw [branchlessLoop]
      by_cases hlt : 1 < size
      · rw [if_pos hlt]
        simp only [h (base + size / 2) (by omega), ok_bind]
        split
        · obtain ⟨b, h2, h3, h4⟩ := ih (size - size / 2) base (by omega) (by omega) (by omega)
          exact ⟨b, h2, h3, by omega⟩
        · obtain ⟨b, h2, h3, h4⟩ := ih (size - size / 2) (base + size / 2) (by omega) (by omega) (by omega)
          exact ⟨b, h2, by omega, by omega⟩
      · rw [if_neg hlt]
        exact ⟨_, rfl, le_rfl, by omega⟩
  intro fuel
  induction fuel with
  | zero => intro size base hf h1; omega
  | succ fuel ih =>
    intro size base hf h1 hn
    rw [branchlessLoop, branchlessLoop]
    by_cases hlt : 1 < size
    · rw [if_pos hlt, if_pos hlt]
      simp only [h (base + size / 2) (by omega), h' (base + size / 2) (by omega), ok_bind]
      have ho := hc (base + size / 2) (by omega)
      by_cases e : c (base + size / 2) = .gt <;> by_cases e' : c' (base + size / 2) = .gt
      · rw [if_pos e, if_pos e']
        obtain ⟨b, b', h2, h3, h4, h5, h6⟩ := ih (size - size / 2) base (by omega) (by omega) (by omega)
        exact ⟨b, b', h2, h3, h4, h5, by omega⟩
      · rw [if_pos e, if_neg e']
        obtain ⟨b, h2, h3, h4⟩ := single h fuel (size - size / 2) base (by omega) (by omega) (by omega)
        obtain ⟨b', h2', h3', h4'⟩ :=
          single h' fuel (size - size / 2) (base + size / 2) (by omega) (by omega) (by omega)
        exact ⟨b, b', h2, h2', h3, by omega, by omega⟩
      · rw [e'] at ho
        cases e1 : c (base + size / 2) <;> rw [e1] at ho <;> simp [ordLe] at ho
        exact absurd e1 e
      · rw [if_neg e, if_neg e']
        obtain ⟨b, b', h2, h3, h4, h5, h6⟩ :=
          ih (size - size / 2) (base + size / 2) (by omega) (by omega) (by omega)
        exact ⟨b, b', h2, h3, by omega, h5, by omega⟩
    · rw [if_neg hlt, if_neg hlt]
      exact ⟨_, _, rfl, rfl, le_rfl, le_rfl, by omega⟩

theorem binarySearch_mono (v : Search) {es : List F64} (hes : ∀ e ∈ es, e ≠ nan) {raw raw' : F64}
    (hraw : raw ≠ nan) (hraw' : raw' ≠ nan)
    (hc : ∀ i < es.length, ordLe (cmp (es.getD i nan) raw') (cmp (es.getD i nan) raw)) :
    ∃ r r', binarySearch v es raw = .ok r ∧ binarySearch v es raw' = .ok r' ∧ pos r ≤ pos r' := by
  have hok : ∀ {raw : F64}, raw ≠ nan → ∀ i < es.length, (do
      let est ← index es i
      unwrap (F64.partialCmp est raw)) = .ok (cmp (es.getD i nan) raw) := by
    intro raw hraw i hi
    simp only [index_ok hi, ok_bind]
    rw [partialCmp_eq (hes _ (List.getElem_mem hi)) hraw]
    simp [unwrap, hi]
  cases v with
  | earlyExit =>
    obtain ⟨r, r', h1, h2, _, h3, _⟩ := binarySearchLoop_mono (hok hraw) (hok hraw') hc
      (es.length + 1) 0 es.length (by omega) (by omega) le_rfl
    exact ⟨r, r', h1, h2, h3⟩
  | branchless =>
    simp only [binarySearch, branchlessSearch]
    by_cases h0 : es.length = 0
    · rw [if_pos h0, if_pos h0]
      exact ⟨_, _, rfl, rfl, le_rfl⟩
    · rw [if_neg h0, if_neg h0]
      obtain ⟨b, b', h1, h2, _, h3, h4⟩ := branchlessLoop_mono (hok hraw) (hok hraw') hc
        es.length es.length 0 le_rfl (by omega) (by omega)
      simp only [h1, h2, ok_bind, hok hraw b (by omega), hok hraw' b' (by omega)]
      rcases Nat.lt_or_ge b b' with hlt | hge
      · cases cmp (es.getD b nan) raw <;> cases cmp (es.getD b' nan) raw' <;>
          exact ⟨_, _, rfl, rfl, by simp only [pos]; omega⟩
      · obtain rfl : b = b' := by omega
        have ho := hc b (by omega)
        cases e : cmp (es.getD b nan) raw <;> cases e' : cmp (es.getD b nan) raw' <;>
          rw [e, e'] at ho <;> simp only [ordLe] at ho <;>
          exact ⟨_, _, rfl, rfl, by simp only [pos]; omega⟩

/-- The linear interpolation of the source between table points `k - 1` and `k`, in `f64`. -/
def interp (es bs : List F64) (raw : F64) (k : Nat) : F64 :=
  F64.add (bs.getD (k - 1) nan)
    (F64.mul (F64.div (F64.sub raw (es.getD (k - 1) nan)) (F64.sub (es.getD k nan) (es.getD (k - 1) nan)))
      (F64.sub (bs.getD k nan) (bs.getD (k - 1) nan)))

/-- The bias for `raw` according to tables `es` (raw estimates) and `bs` (biases): the first/last
bias outside the table, otherwise interpolated between the table points around `raw`, which are
`k - 1` and `k`. -/
inductive BiasSpec (es bs : List F64) (raw : F64) (k : Nat) : F64 → Prop
  | low : F64.le raw (es.getD 0 nan) = true → BiasSpec es bs raw k (bs.getD 0 nan)
  | high : ¬ F64.le raw (es.getD 0 nan) = true → F64.le (es.getD (es.length - 1) nan) raw = true →
      BiasSpec es bs raw k (bs.getD (es.length - 1) nan)
  | mid : ¬ F64.le raw (es.getD 0 nan) = true → ¬ F64.le (es.getD (es.length - 1) nan) raw = true →
      1 ≤ k → k < es.length →
      (cmp (es.getD (k - 1) nan) raw = .lt ∧ cmp (es.getD k nan) raw = .gt ∨
        cmp (es.getD k nan) raw = .eq) →
      BiasSpec es bs raw k (interp es bs raw k)

theorem interpolateBias_ok {search : List F64 → F64 → R (Nat ⊕ Nat)}
    {es bs : List F64} (hlen : es.length = bs.length) (h0 : 0 < es.length)
    (hes : ∀ e ∈ es, e ≠ nan) {raw : F64} (hraw : raw ≠ nan)
    {r : Nat ⊕ Nat} (hr : search es raw = .ok r)
    (hb : Bracket (fun i => cmp (es.getD i nan) raw) es.length r) :
    ∃ b, BiasSpec es bs raw (pos r) b ∧ ∀ cfg : Cfg, es.length < 2 ^ cfg.usizeBits →
      interpolateBias cfg search es bs raw = .ok b := by
  have hnn : ∀ i, i < es.length → es.getD i nan ≠ nan := by
    intro i hi
    rw [List.getD_eq_getElem _ _ hi]
    exact hes _ (List.getElem_mem hi)
  have hix : ∀ (l : List F64) i, i < l.length → index l i = .ok (l.getD i nan) := by
    intro l i hi
    rw [index_ok hi, List.getD_eq_getElem _ _ hi]
  by_cases h1 : F64.le raw (es.getD 0 nan) = true
  · refine ⟨_, .low h1, fun cfg hcfg => ?_⟩
    rw [interpolateBias, hix _ _ h0, ok_bind, if_pos h1, hix _ _ (by omega)]
  · have h1c := h1
    by_cases h2 : F64.le (es.getD (es.length - 1) nan) raw = true
    · refine ⟨_, .high h1 h2, fun cfg hcfg => ?_⟩
      rw [interpolateBias, hix _ _ h0, ok_bind, if_neg h1, subUsize_ok cfg (by omega) hcfg, ok_bind,
        hix _ _ (by omega), ok_bind, if_pos h2, subUsize_ok cfg (by omega) (by omega), ok_bind,
        hix _ _ (by omega), ← hlen]
    · have h2c := h2
      rw [le_iff hraw (hnn 0 h0), F64.cmp_swap, not_not] at h1
      have h1' : cmp (es.getD 0 nan) raw = .lt := by
        cases hc : cmp (es.getD 0 nan) raw <;> simp_all [Ordering.swap]
      rw [le_iff (hnn _ (by omega)) hraw, not_not] at h2
      have key : ∃ k, 1 ≤ k ∧ k < es.length ∧
          (cmp (es.getD (k - 1) nan) raw = .lt ∧ cmp (es.getD k nan) raw = .gt ∨
            cmp (es.getD k nan) raw = .eq) ∧ (r = .inl k ∨ r = .inr k) := by
        rcases r with m | k
        · obtain ⟨hm, he⟩ := hb
          refine ⟨m, ?_, hm, Or.inr he, Or.inl rfl⟩
          rcases Nat.eq_zero_or_pos m with rfl | h
          · simp only at he; rw [h1'] at he; cases he
          · exact h
        · obtain ⟨hk, hl, hg⟩ := hb
          simp only at hl hg
          have hk0 : k ≠ 0 := by
            rintro rfl
            rcases hg with hg | hg
            · omega
            · rw [h1'] at hg; cases hg
          have hkn : k ≠ es.length := by
            rintro rfl
            rcases hl with hl | hl
            · omega
            · rw [h2] at hl; cases hl
          exact ⟨k, by omega, by omega,
            Or.inl ⟨hl.resolve_left hk0, hg.resolve_left hkn⟩, Or.inr rfl⟩
      obtain ⟨k, hk1, hk2, hk3, hk4⟩ := key
      have hk5 : pos r = k := by rcases hk4 with rfl | rfl <;> rfl
      rw [hk5]
      refine ⟨interp es bs raw k, .mid h1c h2c hk1 hk2 hk3, fun cfg hcfg => ?_⟩
      have hs : ∀ f : Nat → R F64, ((search es raw >>= fun x => match x with
          | .inl idx => pure idx
          | .inr idx => pure idx : R Nat) >>= f) = f k := by
        intro f
        rw [hr, ok_bind]; rcases hk4 with rfl | rfl <;> rfl
      rw [interpolateBias, hix _ _ h0, ok_bind, if_neg h1c, subUsize_ok cfg (by omega) hcfg, ok_bind,
        hix _ _ (by omega), ok_bind, if_neg h2c]
      refine (hs _).trans ?_
      rw [subUsize_ok cfg hk1 (by omega), ok_bind, hix _ _ (by omega), ok_bind,
        hix _ _ hk2, ok_bind]
      simp only
      rw [hix _ _ (by omega), ok_bind, hix _ _ (by omega), ok_bind]
      rfl

/-! ## The tables -/

theorem raw_lengths : Constants.RAW_ESTIMATE_DATA.map List.length =
    [79, 159, 200, 200, 200, 201, 200, 201, 201, 200, 201, 201, 200, 201, 200] := by
  rw [Constants.RAW_ESTIMATE_DATA, List.map_map]
  simp only [Function.comp_def, List.length_map]
  decide +kernel

theorem bias_lengths : Constants.BIAS_DATA.map List.length =
    [79, 159, 200, 200, 200, 201, 200, 201, 201, 200, 201, 201, 200, 201, 200] := by
  rw [Constants.BIAS_DATA, List.map_map]
  simp only [Function.comp_def, List.length_map]
  decide +kernel

theorem raw_ne_nan : ∀ l ∈ Constants.RAW_ESTIMATE_DATA, ∀ e ∈ l, e ≠ nan := by
  intro l hl e he
  simp only [Constants.RAW_ESTIMATE_DATA, List.mem_map] at hl
  obtain ⟨d, _, rfl⟩ := hl
  obtain ⟨x, _, rfl⟩ := List.mem_map.1 he
  exact round_ne_nan _ _

/-- The tables used at precision `p`. -/
def rawTable (p : Nat) : List F64 := Constants.RAW_ESTIMATE_DATA.getD (p - 4) []
def biasTable (p : Nat) : List F64 := Constants.BIAS_DATA.getD (p - 4) []

theorem getD_length {α : Type*} (T : List (List α)) (i : Nat) :
    (T.getD i []).length = (T.map List.length).getD i 0 := by
  rw [List.getD_eq_getElem?_getD, List.getD_eq_getElem?_getD, List.getElem?_map]
  cases T[i]? <;> rfl

theorem table_lengths {p : Nat} (hp1 : 4 ≤ p) (hp2 : p ≤ 18) :
    (rawTable p).length = (biasTable p).length ∧ 79 ≤ (rawTable p).length ∧
      (rawTable p).length ≤ 201 := by
  rw [rawTable, biasTable, getD_length, getD_length, raw_lengths, bias_lengths]
  interval_cases p <;> decide

/-- The place of `raw` in the table, as found by the search. -/
def posOf (v : Search) (p : Nat) (raw : F64) : Nat :=
  match binarySearch v (rawTable p) raw with
  | .ok r => pos r
  | .error _ => 0

theorem estimateBias_ok (v : Search) {p : Nat} (hp1 : 4 ≤ p) (hp2 : p ≤ 18) {raw : F64} (hraw : raw ≠ nan) :
    ∃ b, BiasSpec (rawTable p) (biasTable p) raw (posOf v p raw) b ∧
      ∀ cfg : Cfg, 32 ≤ cfg.usizeBits → cfg.search = v → estimateBias cfg p raw = .ok b := by
  obtain ⟨h1, h2, h3⟩ := table_lengths hp1 hp2
  have hl1 : Constants.RAW_ESTIMATE_DATA.length = 15 := by
    have := congrArg List.length raw_lengths; simpa using this
  have hl2 : Constants.BIAS_DATA.length = 15 := by
    have := congrArg List.length bias_lengths; simpa using this
  have hnn : ∀ e ∈ rawTable p, e ≠ nan := by
    apply raw_ne_nan
    rw [rawTable, List.getD_eq_getElem _ _ (by omega)]
    exact List.getElem_mem _
  obtain ⟨r, hr1, hr2⟩ := binarySearch_ok v hnn hraw
  obtain ⟨b, hb', hb⟩ := interpolateBias_ok (search := binarySearch v) h1 (by omega)
    hnn hraw hr1 hr2
  have hpos : posOf v p raw = pos r := by rw [posOf, hr1]
  rw [← hpos] at hb'
  refine ⟨b, hb', fun cfg hcfg hv => ?_⟩
  have h32 : 2 ^ 32 ≤ 2 ^ cfg.usizeBits := Nat.pow_le_pow_right (by norm_num) hcfg
  rw [estimateBias, hv, show MIN_PRECISION = 4 from rfl, subU8_ok cfg hp1 (by omega), ok_bind,
    index_ok (by omega), ok_bind, index_ok (by omega), ok_bind, ← hb cfg (by omega), rawTable,
    biasTable, List.getD_eq_getElem _ _ (by omega), List.getD_eq_getElem _ _ (by omega)]

/-- The bias computed by the model on a 64-bit target, as a function. -/
def biasOf (v : Search) (p : Nat) (raw : F64) : F64 :=
  match estimateBias { Cfg.debug64 with search := v } p raw with
  | .ok b => b
  | .error _ => nan

theorem estimateBias_eq (cfg : Cfg) (hcfg : 32 ≤ cfg.usizeBits) {p : Nat} (hp1 : 4 ≤ p)
    (hp2 : p ≤ 18) {raw : F64} (hraw : raw ≠ nan) :
    estimateBias cfg p raw = .ok (biasOf cfg.search p raw) := by
  obtain ⟨b, _, hb⟩ := estimateBias_ok cfg.search hp1 hp2 hraw
  rw [hb cfg hcfg rfl, biasOf, hb { Cfg.debug64 with search := cfg.search } (by simp [Cfg.debug64]) rfl]

theorem biasOf_spec (v : Search) {p : Nat} (hp1 : 4 ≤ p) (hp2 : p ≤ 18) {raw : F64} (hraw : raw ≠ nan) :
    BiasSpec (rawTable p) (biasTable p) raw (posOf v p raw) (biasOf v p raw) := by
  obtain ⟨b, hb', hb⟩ := estimateBias_ok v hp1 hp2 hraw
  rw [biasOf, hb { Cfg.debug64 with search := v } (by simp [Cfg.debug64]) rfl]; exact hb'

end Plus
end HLL
