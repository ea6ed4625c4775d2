import Verif.Proofs.Approx
import Verif.Model.Constants
import Mathlib.Data.List.GetD

/-! # Facts about the empirical tables -/

namespace HLL
open F64 Constants

namespace Tables

/-- A decimal with at most 16 digits after the point, times `10^16`. -/
def sc (d : ℤ × ℕ) : ℤ := d.1 * 10 ^ (16 - d.2)

/-- What is checked of each entry (`m` is `2^p`): magnitudes, and estimate minus bias at least 1. -/
def entryOk (m : ℤ) (r b : ℤ × ℕ) : Bool :=
  decide (r.2 ≤ 16) && decide (b.2 ≤ 16) &&
  decide (8 * 10 ^ 16 ≤ sc r) && decide (sc r ≤ 5 * m * 10 ^ 16) &&
  decide (|sc b| ≤ m * 10 ^ 16) && decide (10 ^ 16 ≤ sc r - sc b)

/-- What is checked of neighbouring entries: the raw estimates differ by at least `2/10000`, and
estimate minus bias does not decrease. -/
def pairOk (r b r' b' : ℤ × ℕ) : Bool :=
  decide (2 * 10 ^ 12 ≤ |sc r' - sc r|) && decide (sc r - sc b ≤ sc r' - sc b')

/-- The raw estimate increases. -/
def incOk (r _b r' _b' : ℤ × ℕ) : Bool := decide (sc r < sc r')

def entriesOk (f : ℤ × ℕ → ℤ × ℕ → Bool) : List (ℤ × ℕ) → List (ℤ × ℕ) → Bool
  | [], [] => true
  | r :: rs, b :: bs => f r b && entriesOk f rs bs
  | _, _ => false

def pairsOk (f : ℤ × ℕ → ℤ × ℕ → ℤ × ℕ → ℤ × ℕ → Bool) (r b : ℤ × ℕ) :
    List (ℤ × ℕ) → List (ℤ × ℕ) → Bool
  | [], [] => true
  | r' :: rs, b' :: bs => f r b r' b' && pairsOk f r' b' rs bs
  | _, _ => false

/-- `pairsOk` for whole tables. -/
def pairsOkT (f : ℤ × ℕ → ℤ × ℕ → ℤ × ℕ → ℤ × ℕ → Bool) : List (ℤ × ℕ) → List (ℤ × ℕ) → Bool
  | r :: rs, b :: bs => pairsOk f r b rs bs
  | _, _ => false

theorem entriesOk_get {f : ℤ × ℕ → ℤ × ℕ → Bool} : ∀ {rs bs : List (ℤ × ℕ)},
    entriesOk f rs bs = true → ∀ k, k < rs.length → f (rs.getD k (0, 0)) (bs.getD k (0, 0)) = true
  | [], [], _, k, hk => absurd hk (by simp)
  | r :: rs, b :: bs, h, k, hk => by
    rw [entriesOk, Bool.and_eq_true] at h
    cases k with
    | zero => exact h.1
    | succ k =>
      rw [List.getD_cons_succ, List.getD_cons_succ]
      exact entriesOk_get h.2 k (by simpa using hk)
  | [], _ :: _, h, _, _ => by simp [entriesOk] at h
  | _ :: _, [], h, _, _ => by simp [entriesOk] at h

theorem pairsOk_get {f : ℤ × ℕ → ℤ × ℕ → ℤ × ℕ → ℤ × ℕ → Bool} :
    ∀ {rs bs : List (ℤ × ℕ)} {r b : ℤ × ℕ}, pairsOk f r b rs bs = true → ∀ k, k < rs.length →
      f ((r :: rs).getD k (0, 0)) ((b :: bs).getD k (0, 0)) (rs.getD k (0, 0)) (bs.getD k (0, 0)) = true
  | [], [], _, _, _, k, hk => absurd hk (by simp)
  | r' :: rs, b' :: bs, r, b, h, k, hk => by
    rw [pairsOk, Bool.and_eq_true] at h
    cases k with
    | zero => exact h.1
    | succ k =>
      have := pairsOk_get h.2 k (by simpa using hk)
      simpa only [List.getD_cons_succ] using this
  | [], _ :: _, _, _, h, _, _ => by simp [pairsOk] at h
  | _ :: _, [], _, _, h, _, _ => by simp [pairsOk] at h

theorem pairsOkT_get {f : ℤ × ℕ → ℤ × ℕ → ℤ × ℕ → ℤ × ℕ → Bool} {rs bs : List (ℤ × ℕ)}
    (h : pairsOkT f rs bs = true) (k : ℕ) (hk : k + 1 < rs.length) :
    f (rs.getD k (0, 0)) (bs.getD k (0, 0)) (rs.getD (k + 1) (0, 0)) (bs.getD (k + 1) (0, 0)) = true := by
  cases rs with
  | nil => simp at hk
  | cons r rs =>
    cases bs with
    | nil => simp [pairsOkT] at h
    | cons b bs =>
      have := pairsOk_get (f := f) (rs := rs) (bs := bs) (r := r) (b := b) h k (by simpa using hk)
      simpa only [List.getD_cons_succ] using this

/-- The decimals for precision `i + 4`. -/
def rawL (i : Nat) : List (ℤ × ℕ) := rawDec.getD i []
def biasL (i : Nat) : List (ℤ × ℕ) := biasDec.getD i []

theorem entries_ok : ∀ i < 15, entriesOk (entryOk (2 ^ (i + 4))) (rawL i) (biasL i) = true := by
  decide +kernel

theorem pairs_ok : ∀ i < 15, pairsOkT pairOk (rawL i) (biasL i) = true := by decide +kernel

/-- The tables of raw estimates are increasing exactly for the precisions other than 5 and 6. -/
theorem sorted_ok : ∀ i < 15, pairsOkT incOk (rawL i) (biasL i) = decide (i ≠ 1 ∧ i ≠ 2) := by
  decide +kernel

end Tables
end HLL
