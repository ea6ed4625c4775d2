import Verif.Proofs.Registers
import Verif.Proofs.SpecLemmas
import Verif.Proofs.Count

/-! # Properties of the packed registers: C15, C16 -/

namespace HLL

/-- A sequence of calls `set_greater(index, value)`. -/
def setAll (cfg : Cfg) (SIZE : Nat) (us : List (Nat × U32)) (r : Registers) : R Registers :=
  us.foldlM (fun r u => r.setGreater cfg SIZE u.1 u.2) r

/-- The largest value written to register `j` by a sequence of updates, `0` if there is none. -/
def maxAt (us : List (Nat × U32)) (j : Nat) : Nat :=
  us.foldl (fun m u => if u.1 = j then max m u.2.toNat else m) 0

theorem foldl_max_init (us : List (Nat × U32)) (j m : Nat) :
    us.foldl (fun m u => if u.1 = j then max m u.2.toNat else m) m = max m (maxAt us j) := by
  unfold maxAt
  induction us generalizing m with
  | nil => simp
  | cons u us ih =>
    simp only [List.foldl_cons]
    rw [ih, ih (if u.1 = j then max 0 u.2.toNat else 0)]
    split <;> omega

theorem setAll_ok {S : Nat} (hS : Registers.GoodSize S) (cfg : Cfg) {n : Nat}
    (hn : n < 2 ^ cfg.usizeBits) : ∀ (us : List (Nat × U32)) (r : Registers) (f : Nat → Nat),
      Registers.Rep S r n f → (∀ u ∈ us, u.1 < n ∧ u.2.toNat < 2 ^ S) →
      ∃ r', setAll cfg S us r = .ok r' ∧ Registers.Rep S r' n (fun j => max (f j) (maxAt us j))
  | [], r, f, h, _ => ⟨r, rfl, h.congr fun j _ => by simp [maxAt]⟩
  | u :: us, r, f, h, hu => by
    obtain ⟨r1, h1, h2⟩ := h.setGreater hS cfg (hu u (by simp)).1 u.2 (hu u (by simp)).2 hn
    obtain ⟨r2, h3, h4⟩ := setAll_ok hS cfg hn us r1 _ h2 (fun x hx => hu x (by simp [hx]))
    refine ⟨r2, ?_, h4.congr fun j _ => ?_⟩
    · rw [setAll, List.foldlM_cons, h1, ok_bind]; exact h3
    · rw [show maxAt (u :: us) j = max (if u.1 = j then max 0 u.2.toNat else 0) (maxAt us j) from by
        rw [maxAt, List.foldl_cons, foldl_max_init]]
      by_cases hj : u.1 = j
      · subst hj; simp
      · rw [if_neg hj, Function.update_of_ne (Ne.symm hj)]; omega

/-- **C15, C16.** Packed registers behave like an array of independent maxima.  Starting from
`with_count(n)`, any sequence of updates with values that fit in a field succeeds, and then
* every register holds the largest value written to it (so writing one never changes another),
* iteration yields exactly these `n` values in index order,
* the zero counter is the number of registers that are zero.
`S = 5` is `Registers`, `S = 6` is `RegistersPlus`. -/
theorem C15_registers_independent_maxima {S : Nat} (hS : S = 5 ∨ S = 6) (cfg : Cfg) {n : Nat}
    (hn : n + 6 < 2 ^ cfg.usizeBits) {us : List (Nat × U32)}
    (hu : ∀ u ∈ us, u.1 < n ∧ u.2.toNat < 2 ^ S) :
    ∃ r₀ r, Registers.withCount cfg S n = .ok r₀ ∧ setAll cfg S us r₀ = .ok r ∧
      (∀ j < n, ∃ v, r.get cfg S j = .ok v ∧ v.toNat = maxAt us j) ∧
      (r.iter S).map BitVec.toNat = (List.range n).map (maxAt us) ∧
      r.zeros = ((List.range n).map (maxAt us)).count 0 := by
  obtain ⟨r₀, h1, h2⟩ := Registers.rep_withCount cfg (S := S) hS hn
  obtain ⟨r, h3, h4⟩ := setAll_ok hS cfg (by omega) us r₀ _ h2 hu
  have h5 : Registers.Rep S r n (maxAt us) := h4.congr fun j _ => by simp
  refine ⟨r₀, r, h1, h3, ?_, h5.iter_eq hS, h5.zeros_count⟩
  intro j hj
  exact h5.get hS cfg hj

/-- Neighbouring registers in one word, updated in turn. -/
example : ∀ u ∈ [(3, 61), (4, 1), (3, 7), (5, 63)], u.1 < 16 ∧ (u.2 : U32).toNat < 2 ^ 6 := by decide
example : maxAt [(3, 61), (4, 1), (3, 7), (5, 63)] 3 = 61 := by decide

/-- **C15.** All ranks that occur fit in the fields: at most 61 for 64-bit hashes, at most 29 for
32-bit ones. -/
theorem C15_ranks_fit {p h : Nat} (hp : 4 ≤ p) :
    Spec.rank 64 p h ≤ 61 ∧ Spec.rank 64 p h < 2 ^ Plus.SIZE ∧ Spec.rank 32 p h ≤ 29 ∧
      Spec.rank 32 p h < 2 ^ PF.SIZE := by
  have h1 := rank_le 64 p h
  have h2 := rank_le 32 p h
  have e1 : 2 ^ Plus.SIZE = 64 := rfl
  have e2 : 2 ^ PF.SIZE = 32 := rfl
  omega

end HLL
