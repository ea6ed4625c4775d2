import Verif.SpecDe
import Verif.Proofs.Serde
import Verif.Proofs.Count
import Verif.Proofs.History

/-! # Well-formed sketches are safe -/

namespace HLL
open Spec

/-! ## Registers -/

theorem lane_toNat {S : Nat} (hS : Registers.GoodSize S) (w : U32) (i : Nat) :
    (Registers.lane S w i).toNat = w.toNat / 2 ^ (i * S) % 2 ^ S := by
  have hm : (Registers.mask S).toNat = 2 ^ S - 1 := by rcases hS with rfl | rfl <;> decide
  rw [Registers.lane, BitVec.toNat_and, hm, Nat.and_two_pow_sub_one_eq_mod,
    BitVec.toNat_ushiftRight, Nat.shiftRight_eq_div_pow]

theorem count_zero_eq_card (n : Nat) (f : Nat → Nat) :
    ((List.range n).map f).count 0 = ((Finset.range n).filter fun j => f j = 0).card := by
  induction n with
  | zero => rfl
  | succ n ih =>
    rw [List.range_succ, List.map_append, List.count_append, ih, Finset.range_add_one,
      Finset.filter_insert]
    by_cases h : f n = 0
    · rw [if_pos h, Finset.card_insert_of_notMem (by simp)]; simp [h]
    · rw [if_neg h]; simp [h]

theorem goodRegs_rep {S n : Nat} (hS : Registers.GoodSize S) {r : Registers} (h : GoodRegs S n r) :
    Registers.Lanes S r n (packed S (r.buf.map BitVec.toNat)) := by
  obtain ⟨h1, h2, h3⟩ := h
  refine ⟨h1, h2, ?_, by rw [h3, count_zero_eq_card]⟩
  intro j hj
  have hc := Registers.perWord_pos hS
  have hlt : j / Registers.perWord S < r.buf.length := by
    rw [h2]
    change _ < (n + Registers.perWord S - 1) / Registers.perWord S
    rw [Nat.div_lt_iff_lt_mul hc]
    have := Nat.div_add_mod (n + Registers.perWord S - 1) (Registers.perWord S)
    have h5 := Nat.mod_lt (n + Registers.perWord S - 1) hc
    rw [Nat.mul_comm] at this
    omega
  refine ⟨_, List.getElem?_eq_getElem hlt, ?_⟩
  rw [lane_toNat hS, packed]
  congr 2
  change _ = (r.buf.map BitVec.toNat).getD (j / Registers.perWord S) 0
  rw [List.getD_eq_getElem?_getD, List.getElem?_map, List.getElem?_eq_getElem hlt]
  rfl

theorem rep_goodRegs {S n : Nat} (hS : Registers.GoodSize S) {r : Registers} {f : Nat → Nat}
    (h : Registers.Lanes S r n f) : GoodRegs S n r := by
  refine ⟨h.count_eq, h.len_eq, ?_⟩
  rw [count_zero_eq_card, h.zeros_eq]
  congr 1
  apply Finset.filter_congr
  intro j hj
  obtain ⟨w, h1, h2⟩ := h.get_eq j (Finset.mem_range.1 hj)
  rw [← h2, lane_toNat hS, packed]
  change _ ↔ ((r.buf.map BitVec.toNat).getD (j / Registers.perWord S) 0) / _ % _ = 0
  rw [List.getD_eq_getElem?_getD, List.getElem?_map, h1]
  rfl

/-! ## Codes -/

theorem goodCode_iff (p c : Nat) :
    GoodCode p c ↔ ∃ h, h < 2 ^ 64 ∧ code p h = c := by
  constructor
  · intro hc
    unfold GoodCode at hc
    split at hc
    · rename_i ho
      obtain ⟨h0, h1, h2, h3⟩ := hc
      by_cases h40 : c / 2 % 64 = 40
      · refine ⟨c / 128 * 2 ^ 39, by omega, ?_⟩
        have hd : c / 128 * 2 ^ 39 / 2 ^ 39 = c / 128 := Nat.mul_div_cancel _ (by norm_num)
        unfold code
        simp only
        rw [hd, if_pos h1, firstOne_zero (by omega)]
        omega
      · have hk : 2 ^ (39 - c / 2 % 64) < 2 ^ 39 := Nat.pow_lt_pow_right (by norm_num) (by omega)
        have hd : (c / 128 * 2 ^ 39 + 2 ^ (39 - c / 2 % 64)) / 2 ^ 39 = c / 128 := by
          rw [Nat.add_comm, Nat.add_mul_div_right _ _ (by norm_num), Nat.div_eq_of_lt hk, Nat.zero_add]
        have hm : (c / 128 * 2 ^ 39 + 2 ^ (39 - c / 2 % 64)) % 2 ^ 39 = 2 ^ (39 - c / 2 % 64) := by
          rw [Nat.add_comm, Nat.add_mul_mod_self_right, Nat.mod_eq_of_lt hk]
        refine ⟨c / 128 * 2 ^ 39 + 2 ^ (39 - c / 2 % 64), by omega, ?_⟩
        unfold code
        simp only
        rw [hd, if_pos h1, firstOne_of_bounds (k := 39 - c / 2 % 64) (by rw [hm])
          (by rw [hm]; exact Nat.pow_lt_pow_right (by norm_num) (by omega))]
        omega
    · refine ⟨c / 2 * 2 ^ 39, by omega, ?_⟩
      have hd : c / 2 * 2 ^ 39 / 2 ^ 39 = c / 2 := Nat.mul_div_cancel _ (by norm_num)
      unfold code
      simp only
      rw [hd, if_neg hc.2]
      omega
  · rintro ⟨h, hh, rfl⟩
    have h1 := firstOne_pos 39 h
    have h2 := firstOne_le 39 h
    unfold GoodCode code
    simp only
    split
    · rename_i h0
      have e : h / 2 ^ 39 * 128 + firstOne 39 h * 2 + 1 = (h / 2 ^ 39 * 64 + firstOne 39 h) * 2 + 1 := by
        ring
      rw [if_pos (by omega)]
      have e1 : (h / 2 ^ 39 * 128 + firstOne 39 h * 2 + 1) / 128 = h / 2 ^ 39 := by omega
      rw [e1]
      exact ⟨by omega, h0, by omega, by omega⟩
    · rename_i h0
      rw [if_neg (by omega), Nat.mul_div_cancel _ (by norm_num)]
      exact ⟨by omega, h0⟩

/-! ## The sparse list -/

theorem pushLoop_bytes (fuel : Nat) (x : U32) (h : x.toNat < 2 ^ (7 * fuel)) (hf : 0 < fuel) :
    (VarIntVec.pushLoop fuel x).map BitVec.toNat = varBytes x.toNat := by
  induction fuel generalizing x with
  | zero => omega
  | succ n ih =>
    rw [VarIntVec.pushLoop, varBytes]
    by_cases hx : x.toNat < 128
    · have h0 := (VarIntVec.and_varMask_eq_zero x).2 hx
      rw [if_neg (by simp [h0]), if_pos hx]
      simp only [List.map_cons, List.map_nil, VarIntVec.toNat_low7]
      rw [Nat.mod_eq_of_lt hx]
    · have h0 : x &&& VarIntVec.VAR_INT_MASK ≠ 0 := fun h => hx ((VarIntVec.and_varMask_eq_zero x).1 h)
      have hs : (x >>> 7).toNat = x.toNat / 128 := by simp [Nat.shiftRight_eq_div_pow]
      rw [if_pos h0, if_neg hx, List.map_cons]
      have h7 := VarIntVec.msb_set ((x &&& 127#32).setWidth 8) (by rw [VarIntVec.toNat_low7]; omega)
      rw [h7.1, VarIntVec.toNat_low7]
      rcases Nat.eq_zero_or_pos n with rfl | hn
      · simp at h; omega
      · rw [ih (x >>> 7) _ hn, hs]
        rw [hs]
        have : 2 ^ (7 * (n + 1)) = 2 ^ (7 * n) * 128 := by rw [Nat.mul_add, Nat.pow_add]
        rw [this] at h
        exact Nat.div_lt_of_lt_mul (by rw [Nat.mul_comm]; exact h)

theorem gapsBytes_toNat (L : List U32) : ∀ prev : U32, (prev :: L).Pairwise (· ≤ ·) →
    (DifIntVec.gapsBytes prev L).map BitVec.toNat = gapBytes prev.toNat (L.map BitVec.toNat) := by
  induction L with
  | nil => intro prev _; rfl
  | cons x xs ih =>
    intro prev h
    rw [List.pairwise_cons] at h
    have hle : prev.toNat ≤ x.toNat := BitVec.le_def.1 (h.1 x (by simp))
    have hx : (x - prev).toNat = x.toNat - prev.toNat := BitVec.toNat_sub_of_le (BitVec.le_def.2 hle)
    rw [DifIntVec.gapsBytes, List.map_append, List.map_cons, gapBytes, ih x h.2,
      pushLoop_bytes 5 _ (lt_trans (x - prev).isLt (by norm_num)) (by norm_num), hx]

theorem map_toNat_inj {w : Nat} {L M : List (BitVec w)} (h : L.map BitVec.toNat = M.map BitVec.toNat) :
    L = M :=
  List.map_injective_iff.2 (fun _ _ => BitVec.eq_of_toNat_eq) h

theorem getLastD_map_toNat (L : List U32) :
    (L.map BitVec.toNat).getLastD 0 = (L.getLastD 0#32).toNat := by
  rcases L.eq_nil_or_concat with rfl | ⟨l, x, rfl⟩ <;> simp

theorem zero_cons_pairwise {L : List U32} (h : L.Pairwise (· ≤ ·)) : (0#32 :: L).Pairwise (· ≤ ·) :=
  List.pairwise_cons.2 ⟨fun x _ => BitVec.le_def.2 (by simp), h⟩

theorem goodCode_lt {p c : Nat} (h : GoodCode p c) : c < 2 ^ 32 := by
  unfold GoodCode at h
  split at h <;> omega

theorem goodSparse_iff {p : Nat} {d : DifIntVec} :
    GoodSparse p d ↔ ∃ L, DifIntVec.Enc d L ∧ Plus.SortedLT L ∧ ∀ c ∈ L, GoodCode p c.toNat := by
  constructor
  · rintro ⟨L, h1, h2, h3, h4, h5⟩
    have hmap : (L.map (BitVec.ofNat 32)).map BitVec.toNat = L := by
      rw [List.map_map]
      conv_rhs => rw [← List.map_id L]
      apply List.map_congr_left
      intro c hc
      simp only [Function.comp, BitVec.toNat_ofNat, id]
      exact Nat.mod_eq_of_lt (goodCode_lt (h2 c hc))
    have hs : Plus.SortedLT (L.map (BitVec.ofNat 32)) := by
      rw [Plus.SortedLT, ← List.pairwise_map (f := BitVec.toNat) (R := (· < ·)), hmap]
      exact h1
    refine ⟨L.map (BitVec.ofNat 32), ⟨by simpa using h3, ?_, ?_, hs.le⟩, hs, ?_⟩
    · apply BitVec.eq_of_toNat_eq
      rw [h4, ← getLastD_map_toNat, hmap]
    · apply map_toNat_inj
      rw [h5, gapsBytes_toNat _ _ (zero_cons_pairwise hs.le), hmap]
      rfl
    · intro c hc
      obtain ⟨n, hn, rfl⟩ := List.mem_map.1 hc
      rw [BitVec.toNat_ofNat, Nat.mod_eq_of_lt (goodCode_lt (h2 n hn))]
      exact h2 n hn
  · rintro ⟨L, h1, h2, h3⟩
    refine ⟨L.map BitVec.toNat, h2.map, ?_, by simpa using h1.count_eq, ?_, ?_⟩
    · intro c hc
      obtain ⟨n, hn, rfl⟩ := List.mem_map.1 hc
      exact h3 n hn
    · rw [h1.last_eq, getLastD_map_toNat]
    · rw [h1.buf_eq, gapsBytes_toNat _ _ (zero_cons_pairwise h1.sorted)]
      rfl

/-! ## Invariants of programs -/

/-- `P` is an invariant of the sketches of a program, under which no call panics. -/
structure Keeps {St I : Type} (api : Api St I) (P : St → Prop) : Prop where
  new : ∀ p b, ∃ r, api.new p b = .ok r ∧ ∀ s, r = .ok s → P s
  insert : ∀ o k s v, P s → ∃ s', api.insert o k s v = .ok s' ∧ P s'
  merge : ∀ o o' s t, P s → P t → ∃ s' r, api.merge o o' s t = .ok (s', r) ∧ P s'
  count : ∀ o s, P s → ∃ s' c, api.count o s = .ok (s', c) ∧ P s'
  reload : ∀ o s, P s → ∃ r, api.reload o s = .ok r ∧ ∀ s', r = some s' → P s'

theorem forall_set {α : Type} {P : α → Prop} {l : List α} (h : ∀ x ∈ l, P x) (i : Nat) {a : α}
    (ha : P a) : ∀ x ∈ l.set i a, P x := by
  intro x hx
  rcases List.mem_or_eq_of_mem_set hx with hx | rfl
  exacts [h x hx, ha]

theorem forall_snoc {α : Type} {P : α → Prop} {l : List α} (h : ∀ x ∈ l, P x) {a : α}
    (ha : P a) : ∀ x ∈ l ++ [a], P x := by
  intro x hx
  rcases List.mem_append.1 hx with hx | hx
  · exact h x hx
  · rw [List.mem_singleton] at hx; rw [hx]; exact ha

theorem Keeps.step {St I : Type} {api : Api St I} {P : St → Prop} (h : Keeps api P)
    (o : IterOrder × IterOrder) {st : List St} (hst : ∀ s ∈ st, P s) (op : Op I) :
    ∃ st' x, HLL.step api o st op = .ok (st', x) ∧ ∀ s ∈ st', P s := by
  have get : ∀ {i s}, st[i]? = some s → P s := fun hi => hst _ (List.mem_of_getElem? hi)
  cases op with
  | new p b =>
    obtain ⟨r, h1, h2⟩ := h.new p b
    simp only [HLL.step, h1, ok_bind]
    cases r with
    | error e => exact ⟨_, _, rfl, hst⟩
    | ok s => exact ⟨_, _, rfl, forall_snoc hst (h2 s rfl)⟩
  | clone i =>
    simp only [HLL.step]
    cases hi : st[i]? with
    | none => exact ⟨_, _, rfl, hst⟩
    | some s => exact ⟨_, _, rfl, forall_snoc hst (get hi)⟩
  | insert k i v =>
    simp only [HLL.step]
    cases hi : st[i]? with
    | none => exact ⟨_, _, rfl, hst⟩
    | some s =>
      obtain ⟨s', h1, h2⟩ := h.insert o.1 k s v (get hi)
      simp only [h1, ok_bind]
      exact ⟨_, _, rfl, forall_set hst i h2⟩
  | merge i j =>
    simp only [HLL.step]
    cases hi : st[i]? with
    | none => exact ⟨_, _, rfl, hst⟩
    | some s =>
      cases hj : st[j]? with
      | none => exact ⟨_, _, rfl, hst⟩
      | some t =>
        obtain ⟨s', r, h1, h2⟩ := h.merge o.1 o.2 s t (get hi) (get hj)
        simp only [h1, ok_bind]
        exact ⟨_, _, rfl, forall_set hst i h2⟩
  | count i =>
    simp only [HLL.step]
    cases hi : st[i]? with
    | none => exact ⟨_, _, rfl, hst⟩
    | some s =>
      obtain ⟨s', c, h1, h2⟩ := h.count o.1 s (get hi)
      simp only [h1, ok_bind]
      exact ⟨_, _, rfl, forall_set hst i h2⟩
  | reload i =>
    simp only [HLL.step]
    cases hi : st[i]? with
    | none => exact ⟨_, _, rfl, hst⟩
    | some s =>
      obtain ⟨r, h1, h2⟩ := h.reload o.1 s (get hi)
      simp only [h1, ok_bind]
      cases r with
      | none => exact ⟨_, _, rfl, hst⟩
      | some s' => exact ⟨_, _, rfl, forall_snoc hst (h2 s' rfl)⟩

theorem Keeps.run {St I : Type} {api : Api St I} {P : St → Prop} (h : Keeps api P)
    (ords : Nat → IterOrder × IterOrder) : ∀ (ops : List (Op I)) (n : Nat) {st : List St},
    (∀ s ∈ st, P s) → ∃ st' os, HLL.run api ords n st ops = .ok (st', os) ∧ ∀ s ∈ st', P s
  | [], _, st, hst => ⟨st, [], rfl, hst⟩
  | op :: ops, n, st, hst => by
    obtain ⟨st1, x, h1, h2⟩ := h.step (ords n) hst op
    obtain ⟨st2, os, h3, h4⟩ := h.run ords ops (n + 1) h2
    refine ⟨st2, x :: os, ?_, h4⟩
    rw [HLL.run, h1, ok_bind]
    simp only [h3, ok_bind]
    rfl

end HLL
