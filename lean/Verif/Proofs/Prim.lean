import Verif.Model.Prim
import Mathlib.Data.Nat.Log
import Mathlib.Tactic.Ring
import Mathlib.Tactic.IntervalCases

/-! # Lemmas on the language primitives -/

namespace HLL

@[simp] theorem ok_bind {α β : Type _} (a : α) (f : α → R β) : ((Except.ok a : R α) >>= f) = f a := rfl
@[simp] theorem error_bind {α β : Type _} (e : Panic) (f : α → R β) :
    ((Except.error e : R α) >>= f) = .error e := rfl
@[simp] theorem pure_eq_ok {α : Type _} (a : α) : (pure a : R α) = .ok a := rfl

theorem bind_eq_ok {α β : Type _} {x : R α} {f : α → R β} {b : β} :
    (x >>= f) = .ok b ↔ ∃ a, x = .ok a ∧ f a = .ok b := by
  cases x <;> simp

theorem ck_ok (cfg : Cfg) {w : Nat} {z : Int} (h0 : 0 ≤ z) (h1 : z < 2 ^ w) :
    ck cfg w z = .ok z.toNat := by
  simp [ck, h0, h1]

theorem subU8_ok (cfg : Cfg) {a b : Nat} (h : b ≤ a) (ha : a < 256) :
    subU8 cfg a b = .ok (a - b) := by
  unfold subU8
  rw [ck_ok]
  · congr 1; omega
  · omega
  · norm_num; omega

theorem addU8_ok (cfg : Cfg) {a b : Nat} (h : a + b < 256) : addU8 cfg a b = .ok (a + b) := by
  unfold addU8
  rw [ck_ok]
  · congr 1
  · omega
  · norm_num; omega

theorem addUsize_ok (cfg : Cfg) {a b : Nat} (h : a + b < 2 ^ cfg.usizeBits) :
    addUsize cfg a b = .ok (a + b) := by
  unfold addUsize
  rw [ck_ok]
  · congr 1
  · omega
  · exact_mod_cast h

theorem mulUsize_ok (cfg : Cfg) {a b : Nat} (h : a * b < 2 ^ cfg.usizeBits) :
    mulUsize cfg a b = .ok (a * b) := by
  unfold mulUsize
  rw [ck_ok]
  · congr 1
  · positivity
  · exact_mod_cast h

theorem subUsize_ok (cfg : Cfg) {a b : Nat} (h : b ≤ a) (ha : a < 2 ^ cfg.usizeBits) :
    subUsize cfg a b = .ok (a - b) := by
  unfold subUsize
  rw [ck_ok]
  · congr 1; omega
  · omega
  · have : ((a - b : Nat) : Int) < ((2 ^ cfg.usizeBits : Nat) : Int) := by
      exact_mod_cast (by omega : a - b < 2 ^ cfg.usizeBits)
    push_cast [h] at this
    exact this

theorem subU32_ok (cfg : Cfg) {a b : U32} (h : b.toNat ≤ a.toNat) :
    subU32 cfg a b = .ok (a - b) := by
  unfold subU32; rw [if_neg]; omega

theorem addU32_ok (cfg : Cfg) {a b : U32} (h : a.toNat + b.toNat < 2 ^ 32) :
    addU32 cfg a b = .ok (a + b) := by
  unfold addU32; rw [if_neg]; omega

theorem shl_ok {w : Nat} (cfg : Cfg) (x : BitVec w) {k : Nat} (h : k < w) :
    shl cfg x k = .ok (x <<< k) := by
  simp [shl, shAmt, h]

theorem shr_ok {w : Nat} (cfg : Cfg) (x : BitVec w) {k : Nat} (h : k < w) :
    shr cfg x k = .ok (x >>> k) := by
  simp [shr, shAmt, h]

theorem shlUsizeOne_ok (cfg : Cfg) {k : Nat} (h : k < cfg.usizeBits) :
    shlUsizeOne cfg k = .ok (2 ^ k) := by
  simp [shlUsizeOne, shAmt, h]

theorem index_ok {α : Type _} {v : List α} {i : Nat} (h : i < v.length) :
    index v i = .ok v[i] := by
  simp [index, h]

theorem setIndex_ok {α : Type _} {v : List α} {i : Nat} (x : α) (h : i < v.length) :
    setIndex v i x = .ok (v.set i x) := by
  simp [setIndex, h]

/-- `leading_zeros` of a non-zero word. -/
theorem leadingZeros_eq {w : Nat} {x : BitVec w} {k : Nat} (h1 : 2 ^ k ≤ x.toNat)
    (h2 : x.toNat < 2 ^ (k + 1)) : leadingZeros x = w - 1 - k := by
  have h0 : x.toNat ≠ 0 := by have := Nat.two_pow_pos k; omega
  have : Nat.log2 x.toNat = k := by
    rw [Nat.log2_eq_iff h0]; exact ⟨h1, h2⟩
  simp [leadingZeros, h0, this]

end HLL
