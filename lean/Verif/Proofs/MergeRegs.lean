import Verif.Model.Plus
import Verif.Model.PF
import Verif.Proofs.Registers

/-! # The register-wise merge loop of both sketches -/

namespace HLL
namespace Registers

/-- The loop of both `merge` functions, for any register size. -/
def mergeFrom (cfg : Cfg) (S : Nat) : Nat → List U32 → Registers → R Registers
  | _, [], r => pure r
  | i, v :: vs, r => do
    let r ← r.setGreater cfg S i v
    mergeFrom cfg S (i + 1) vs r

theorem plus_mergeRegs (cfg : Cfg) (L : List U32) : ∀ i r,
    Plus.mergeRegs cfg i L r = mergeFrom cfg 6 i L r := by
  induction L with
  | nil => intro i r; rfl
  | cons v vs ih => intro i r; rw [Plus.mergeRegs, mergeFrom]; congr 1; funext r; exact ih _ _

theorem pf_mergeRegs (cfg : Cfg) (L : List U32) : ∀ i r,
    PF.mergeRegs cfg i L r = mergeFrom cfg 5 i L r := by
  induction L with
  | nil => intro i r; rfl
  | cons v vs ih => intro i r; rw [PF.mergeRegs, mergeFrom]; congr 1; funext r; exact ih _ _

theorem mergeFrom_ok {S : Nat} (hS : GoodSize S) (cfg : Cfg) {n : Nat} (hn : n < 2 ^ cfg.usizeBits)
    (g : Nat → Nat) : ∀ (L : List U32) (i : Nat) (r : Registers) (f : Nat → Nat), Lanes S r n f →
    i + L.length = n → (∀ k (hk : k < L.length), (L[k]).toNat = g (i + k) ∧ g (i + k) < 2 ^ S) →
    ∃ r', mergeFrom cfg S i L r = .ok r' ∧
      Lanes S r' n (fun j => if i ≤ j then max (f j) (g j) else f j) ∧
      (Clean S n r → Clean S n r') := by
  intro L
  induction L with
  | nil =>
    intro i r f hr hi _
    refine ⟨r, rfl, hr.congr ?_, id⟩
    intro j hj
    simp at hi
    rw [if_neg (by omega)]
  | cons v vs ih =>
    intro i r f hr hi hL
    simp only [List.length_cons] at hi
    have h0 := hL 0 (by simp)
    simp only [List.getElem_cons_zero, Nat.add_zero] at h0
    obtain ⟨r1, h1, h2, hc1⟩ := hr.setGreater hS cfg (i := i) (by omega) v (by rw [h0.1]; exact h0.2) hn
    obtain ⟨r2, h3, h4, hc2⟩ := ih (i + 1) r1 _ h2 (by omega) (by
      intro k hk
      have := hL (k + 1) (by simp; omega)
      simp only [List.getElem_cons_succ] at this
      rwa [show i + 1 + k = i + (k + 1) by omega])
    refine ⟨r2, by rw [mergeFrom, h1, ok_bind, h3], h4.congr ?_, hc2 ∘ hc1⟩
    intro j _
    by_cases hj : j = i
    · subst hj
      rw [if_neg (by omega), if_pos le_rfl, Function.update_self, h0.1]
    · rw [Function.update_of_ne hj]
      by_cases hij : i ≤ j
      · rw [if_pos (by omega), if_pos hij]
      · rw [if_neg (by omega), if_neg hij]

/-- Merging all the registers of `r'` into `r` takes the maximum everywhere. -/
theorem mergeFrom_lanes {S : Nat} (hS : GoodSize S) (cfg : Cfg) {n : Nat}
    (hn : n < 2 ^ cfg.usizeBits) {r r' : Registers} {f g : Nat → Nat} (hr : Lanes S r n f)
    (hr' : Lanes S r' n g) :
    ∃ r'', mergeFrom cfg S 0 (r'.iter S) r = .ok r'' ∧
      Lanes S r'' n (fun j => max (f j) (g j)) ∧ (Clean S n r → Clean S n r'') := by
  have hlen := hr'.length_iter hS
  obtain ⟨r'', h1, h2, hc⟩ := mergeFrom_ok hS cfg hn g (r'.iter S) 0 r f hr (by omega) (by
    intro k hk
    have h := hr'.iter_eq hS
    have hk' : k < n := by omega
    have h' : ((r'.iter S).map BitVec.toNat)[k]'(by simpa using hk) = ((List.range n).map g)[k]'(by simpa using hk') := by
      simp only [h]
    simp only [List.getElem_map, List.getElem_range] at h'
    rw [Nat.zero_add, h']
    exact ⟨rfl, hr'.lt hS hk'⟩)
  exact ⟨r'', h1, h2.congr (fun j _ => by simp), hc⟩

theorem mergeFrom_iter {S : Nat} (hS : GoodSize S) (cfg : Cfg) {n : Nat}
    (hn : n < 2 ^ cfg.usizeBits) {r r' : Registers} {f g : Nat → Nat} (hr : Rep S r n f)
    (hr' : Lanes S r' n g) :
    ∃ r'', mergeFrom cfg S 0 (r'.iter S) r = .ok r'' ∧ Rep S r'' n (fun j => max (f j) (g j)) := by
  obtain ⟨r'', h1, h2, h3⟩ := mergeFrom_lanes hS cfg hn hr.toLanes hr'
  exact ⟨r'', h1, h2, h3 hr.clean⟩

end Registers
end HLL
