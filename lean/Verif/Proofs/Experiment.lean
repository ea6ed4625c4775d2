import Verif.Model.Experiment
import Verif.Proofs.FloatOps
import Verif.Proofs.Approx
import Verif.Proofs.Evaluation
import Mathlib.Algebra.Order.Floor.Ring
import Mathlib.Order.Interval.Finset.Nat
import Mathlib.Algebra.Order.Archimedean.Basic
import Mathlib.Tactic.Linarith
import Mathlib.Tactic.NormNum

/-! # The cardinalities of `exp.py` -/

namespace HLL.Exp
open F64

/-- The double nearest to 1.007. -/
def ratio : ℚ := rnd ((1007 : ℚ) / 1000)

theorem ratio_err : |ratio - 1.007| ≤ 1 / 2 ^ 52 := by
  have h := rnd_err (K := ℚ) ((1007 : ℚ) / 1000)
  have h2 : (2 : ℚ) ^ (-1074 : ℤ) ≤ 2 ^ (-60 : ℤ) := zpow_le_zpow_right₀ (by norm_num) (by norm_num)
  rw [Rat.cast_id, abs_of_pos (a := (1007 : ℚ) / 1000) (by norm_num)] at h
  unfold ratio
  generalize (2 : ℚ) ^ (-1074 : ℤ) = t at *
  norm_num at h h2 ⊢
  linarith

theorem ofDec_ratio : ofDec 1007 3 = fin ratio := by
  unfold ofDec
  have : ((1007 : ℤ) : ℚ) / 10 ^ 3 = 1007 / 1000 := by norm_num
  rw [this, round_fin _ (Or.inl rfl)]
  · rfl
  · rw [abs_of_pos (by norm_num)]
    calc (1007 : ℚ) / 1000 ≤ 2 ^ 1 := by norm_num
      _ ≤ 2 ^ 1023 := pow_le_pow_right₀ (by norm_num) (by norm_num)

/-- The values of `cur`. -/
def cur : Nat → ℚ
  | 0 => 1
  | k + 1 => rnd (cur k * ratio)

theorem step_err {y : ℚ} (hy : 1 ≤ y) : |rnd (y * ratio) - 1.007 * y| ≤ y / 2 ^ 51 := by
  have h := ratio_err
  rw [abs_le] at h
  have hr1 : (1 : ℚ) ≤ ratio := by norm_num at h ⊢; linarith
  have hr2 : ratio ≤ 1.01 := by norm_num at h ⊢; linarith
  have h1 := rnd_err (K := ℚ) (y * ratio)
  have h2 : (2 : ℚ) ^ (-1074 : ℤ) ≤ 2 ^ (-60 : ℤ) := zpow_le_zpow_right₀ (by norm_num) (by norm_num)
  rw [Rat.cast_id, abs_of_pos (a := y * ratio) (by positivity), abs_le] at h1
  have h3 : y * ratio ≤ y * 1.01 := by gcongr
  have h4 : y * ratio ≤ y * (1.007 + 1 / 2 ^ 52) := by gcongr; linarith [h.2]
  have h5 : y * (1.007 - 1 / 2 ^ 52) ≤ y * ratio := by gcongr; linarith [h.1]
  rw [abs_le]
  generalize rnd (y * ratio) = a at *
  generalize y * ratio = b at *
  generalize (2 : ℚ) ^ (-1074 : ℤ) = t at *
  norm_num at h1 h2 h3 h4 h5 ⊢
  constructor <;> linarith

theorem one_le_cur : ∀ k, 1 ≤ cur k
  | 0 => le_refl _
  | k + 1 => by
    have h := one_le_cur k
    have := step_err h
    rw [abs_le] at this
    rw [cur]
    norm_num at this ⊢
    linarith

theorem cur_succ (k : Nat) : 1.00699 * cur k ≤ cur (k + 1) ∧ cur (k + 1) ≤ 1.0071 * cur k := by
  have h := one_le_cur k
  have := step_err h
  rw [abs_le] at this
  rw [cur]
  norm_num at this ⊢
  constructor <;> linarith

theorem cur_lt_succ (k : Nat) : cur k < cur (k + 1) := by
  have := (cur_succ k).1
  have := one_le_cur k
  norm_num at *
  linarith

theorem cur_mono : StrictMono cur := strictMono_nat_of_lt_succ cur_lt_succ

/-- The values follow the geometric series. -/
theorem cur_close : ∀ k : Nat, k ≤ 2 ^ 40 → |cur k - 1.007 ^ k| ≤ k / 2 ^ 50 * 1.007 ^ k
  | 0, _ => by simp [cur]
  | k + 1, hk => by
    have ih := cur_close k (by omega)
    have h := step_err (one_le_cur k)
    rw [cur, pow_succ]
    have hp : (0 : ℚ) < 1.007 ^ k := by positivity
    have hk' : (k : ℚ) ≤ 2 ^ 40 := by exact_mod_cast (by omega : k ≤ 2 ^ 40)
    have h1 : (k : ℚ) / 2 ^ 50 * 1.007 ^ k ≤ 2 ^ 40 / 2 ^ 50 * 1.007 ^ k := by gcongr
    rw [abs_le] at *
    push_cast
    have h0 : (0 : ℚ) ≤ k / 2 ^ 50 * 1.007 ^ k := by positivity
    rw [show ((k : ℚ) + 1) / 2 ^ 50 * (1.007 ^ k * 1.007) =
      1.007 * (k / 2 ^ 50 * 1.007 ^ k) + 1.007 * 1.007 ^ k / 2 ^ 50 by ring]
    generalize (k : ℚ) / 2 ^ 50 * 1.007 ^ k = e at *
    generalize (1.007 : ℚ) ^ k = g at *
    generalize rnd (cur k * ratio) = a at *
    norm_num at ih h h1 ⊢
    constructor <;> linarith

/-- The number of steps until a bound is reached. -/
theorem cur_ge (j : Nat) : (2 : ℚ) ^ j ≤ cur (101 * j) := by
  induction j with
  | zero => simp [cur]
  | succ j ih =>
    have h : ∀ n k, (1.00699 : ℚ) ^ n * cur k ≤ cur (k + n) := by
      intro n
      induction n with
      | zero => intro k; simp
      | succ n ihn =>
        intro k
        have h1 := ihn k
        have h2 := (cur_succ (k + n)).1
        rw [pow_succ, ← add_assoc]
        have : (1.00699 : ℚ) ^ n * 1.00699 * cur k = 1.00699 * (1.00699 ^ n * cur k) := by ring
        rw [this]
        refine le_trans ?_ h2
        gcongr
    have h1 := h 101 (101 * j)
    have h2 : (2 : ℚ) ≤ 1.00699 ^ 101 := by norm_num
    rw [pow_succ, mul_comm, Nat.mul_succ]
    refine le_trans ?_ h1
    gcongr

theorem int_cur (k : Nat) : int (fin (cur k)) = .ok ⌊cur k⌋ := by
  have := one_le_cur k
  rw [int, if_pos (by linarith)]

theorem ratio_pos : 0 ≤ ratio := by
  have h := ratio_err
  rw [abs_le] at h
  norm_num at h ⊢
  linarith

theorem mul_cur {k : Nat} (h : cur (k + 1) < 2 ^ 1024) :
    F64.mul (fin (cur k)) (fin ratio) = fin (cur (k + 1)) := by
  have h1 := one_le_cur k
  have h2 := one_le_cur (k + 1)
  rw [mul_fin, round_eq_fin]
  · rfl
  · rw [← cur, abs_of_nonneg (zero_le_one.trans h2)]
    exact h
  · right
    rw [← cur]
    exact (lt_of_lt_of_le zero_lt_one h2).ne'

theorem mul_cur_inf {k : Nat} (h : 2 ^ 1024 ≤ cur (k + 1)) :
    F64.mul (fin (cur k)) (fin ratio) = inf false := by
  have h1 := one_le_cur k
  have h2 := one_le_cur (k + 1)
  have h3 := ratio_pos
  rw [mul_fin, F64.round, if_pos]
  · rw [decide_eq_false]
    exact not_lt.2 (mul_nonneg (by linarith) h3)
  · rw [← cur, abs_of_nonneg (zero_le_one.trans h2)]
    exact h

/-- What the loop does from its `k`-th iteration on, if its condition fails first at `K`. -/
theorem loop_eq {M : ℤ} {K : Nat} (hM : cur K < 2 ^ 1024) (h1 : ∀ k < K, cur k < M) (h2 : (M : ℚ) ≤ cur K) :
    ∀ (fuel k : Nat) (data : Finset ℤ), k ≤ K →
      cardinalitiesLoop (fin ratio) M fuel (fin (cur k)) data =
        if K - k < fuel then some (.ok (data ∪ (Finset.Icc k K).image fun j => ⌊cur j⌋)) else none
  | 0, k, data, _ => by simp [cardinalitiesLoop]
  | fuel + 1, k, data, hk => by
    rw [cardinalitiesLoop, int_cur]
    rcases Nat.lt_or_ge k K with h | h
    · have hlt := h1 k h
      have hl : lessInt (fin (cur k)) M = true := by simp [lessInt, hlt]
      simp only [hl, if_true]
      rw [mul_cur (lt_of_le_of_lt (cur_mono.monotone h) hM), loop_eq hM h1 h2 fuel (k + 1) _ h]
      have e : (Finset.Icc k K) = insert k (Finset.Icc (k + 1) K) := by
        ext j; simp only [Finset.mem_Icc, Finset.mem_insert]; omega
      have c : (K - (k + 1) < fuel) = (K - k < fuel + 1) := by apply propext; omega
      rw [e, Finset.image_insert]
      simp only [c, Finset.insert_union, Finset.union_insert]
    · obtain rfl : k = K := by omega
      have hl : lessInt (fin (cur k)) M = false := by simp [lessInt, h2]
      simp [hl]

/-- The same if the values overflow before the condition fails. -/
theorem loop_overflow {M : ℤ} {K : Nat} (hM : 2 ^ 1024 ≤ cur (K + 1)) (hK : cur K < 2 ^ 1024)
    (h1 : ∀ k ≤ K, cur k < M) :
    ∀ (fuel k : Nat) (data : Finset ℤ), k ≤ K →
      cardinalitiesLoop (fin ratio) M fuel (fin (cur k)) data =
        if K + 1 - k < fuel then some (.error .OverflowError) else none
  | 0, k, data, _ => by simp [cardinalitiesLoop]
  | fuel + 1, k, data, hk => by
    rw [cardinalitiesLoop, int_cur]
    have hl : lessInt (fin (cur k)) M = true := by simp [lessInt, h1 k hk]
    simp only [hl, if_true]
    rcases Nat.lt_or_ge k K with h | h
    · rw [mul_cur (lt_of_le_of_lt (cur_mono.monotone h) hK), loop_overflow hM hK h1 fuel (k + 1) _ h]
      have c : (K + 1 - (k + 1) < fuel) = (K + 1 - k < fuel + 1) := by apply propext; omega
      simp only [c]
    · obtain rfl : k = K := by omega
      rw [mul_cur_inf hM]
      cases fuel with
      | zero => simp [cardinalitiesLoop]
      | succ f => simp [cardinalitiesLoop, int]

/-- The first value that is at least `x`. -/
theorem exists_first (x : ℚ) : ∃ K, (∀ k < K, cur k < x) ∧ x ≤ cur K := by
  have h : ∃ K, x ≤ cur K := by
    obtain ⟨j, hj⟩ := exists_nat_gt x
    have h2 : (j : ℚ) ≤ 2 ^ j := by exact_mod_cast Nat.lt_two_pow_self.le
    exact ⟨101 * j, (hj.le.trans h2).trans (cur_ge j)⟩
  classical
  exact ⟨Nat.find h, fun k hk => not_le.1 (Nat.find_min h hk), Nat.find_spec h⟩

/-! ## Reading the results -/

open Evl

theorem readline_line : ∀ (l rest : Text), '\n' ∉ l → readline (l ++ '\n' :: rest) = (l ++ ['\n'], rest)
  | [], rest, _ => by simp [readline]
  | c :: l, rest, h => by
    rw [List.mem_cons, not_or] at h
    rw [List.cons_append, readline, if_neg (fun e => h.1 e.symm), readline_line l rest h.2]
    rfl

theorem isWhitespace_of_isDigit {c : Char} (h : c.isDigit = true) : c.isWhitespace = false := by
  simp only [Char.isDigit, Bool.and_eq_true, decide_eq_true_eq, UInt32.le_iff_toNat_le] at h
  simp only [Char.isWhitespace, Bool.or_eq_false_iff, decide_eq_false_iff_not]
  refine ⟨⟨⟨?_, ?_⟩, ?_⟩, ?_⟩ <;> rintro rfl <;> revert h <;> decide

theorem dropWhile_digits {l : Text} (h : ∀ c ∈ l, c.isDigit = true) : l.dropWhile Char.isWhitespace = l := by
  cases l with
  | nil => rfl
  | cons c l => rw [List.dropWhile_cons_of_neg]; simp [isWhitespace_of_isDigit (h c (by simp))]

theorem strip_digits {l : Text} (h : ∀ c ∈ l, c.isDigit = true) : strip l = l := by
  rw [strip, dropWhile_digits h, dropWhile_digits (by simpa using h), List.reverse_reverse]

theorem strip_digits_nl {l : Text} (h : ∀ c ∈ l, c.isDigit = true) (hl : l ≠ []) : strip (l ++ ['\n']) = l := by
  obtain ⟨c, l', rfl⟩ := List.exists_cons_of_ne_nil hl
  have hc := isWhitespace_of_isDigit (h c (by simp))
  rw [strip, List.cons_append, List.dropWhile_cons_of_neg (by simp [hc]), ← List.cons_append,
    List.reverse_append]
  simp only [List.reverse_singleton, List.singleton_append]
  rw [List.dropWhile_cons_of_pos (by decide), dropWhile_digits (fun d hd => h d (List.mem_reverse.1 hd)),
    List.reverse_reverse]

theorem foldl_display (n : Nat) : (display n).foldl (fun n d => n * 10 + (d.toNat - 48)) 0 = n := by
  induction n using Nat.strong_induction_on with
  | _ n ih =>
    rw [display, Nat.toDigits_eq_if (by norm_num)]
    split
    · rename_i hn
      simp [Nat.toNat_digitChar_sub_48_of_lt_ten hn]
    · rw [List.foldl_append, ← display, ih (n / 10) (by omega)]
      simp only [List.foldl_cons, List.foldl_nil,
        Nat.toNat_digitChar_sub_48_of_lt_ten (Nat.mod_lt n (by norm_num : 10 > 0))]
      omega

theorem float_of_strip {s : Text} {n : Nat} (h : strip s = display n) : float s = .ok (ofNat n) := by
  have hd : (display n).all Char.isDigit = true := by
    rw [List.all_eq_true]; exact fun c hc => display_isDigit hc
  have hf := foldl_display n
  have hne := display_ne_nil n
  rw [float, h]
  generalize display n = l at *
  cases l with
  | nil => exact absurd rfl hne
  | cons c l =>
    simp only
    rw [if_pos hd, hf]

theorem lineValues_eq (t e : Nat) :
    lineValues (displayEstimation (t, e) ++ ['\n']) = .ok [ofNat t, ofNat e] := by
  have h1 : ' ' ∉ display t := display_no (by decide)
  have h2 : ' ' ∉ display e ++ ['\n'] := by
    rw [List.mem_append, not_or]; exact ⟨display_no (by decide), by decide⟩
  have hs : (displayEstimation (t, e) ++ ['\n']).splitOn ' ' = [display t, display e ++ ['\n']] := by
    rw [displayEstimation, List.append_assoc, List.append_assoc, List.singleton_append]
    rw [List.splitOn_append_cons_self_of_not_mem h1, List.splitOn_eq_singleton h2]
  have k1 : float (display t) = .ok (ofNat t) := float_of_strip (strip_digits fun c hc => display_isDigit hc)
  have k2 : float (display e ++ ['\n']) = .ok (ofNat e) :=
    float_of_strip (strip_digits_nl (fun c hc => display_isDigit hc) (display_ne_nil e))
  rw [lineValues, hs, List.mapM_cons, k1, List.mapM_cons, k2]
  rfl

/-- The relative error that the script computes from an estimate `e` and the true number `t`. -/
def relErr (e t : Nat) : F64 := F64.div (abs (F64.sub (ofNat e) (ofNat t))) (ofNat t)

theorem relativeError_eq {e t : Nat} (h1 : 0 < t) (h2 : t ≤ 2 ^ 53) :
    relativeError [ofNat t, ofNat e] = .ok (relErr e t) := by
  have h3 : (t : ℚ) ≠ 0 := by exact_mod_cast h1.ne'
  rw [relErr, relativeError, ofNat_eq h2]
  have h4 : ¬ (fin (t : ℚ) = fin 0 ∨ fin (t : ℚ) = negZero) := by simp [h3]
  simp only [item, List.getElem?_cons_succ, List.getElem?_cons_zero, bind, Except.bind, if_neg h4]
  rfl

theorem int_ofNat {t : Nat} (h2 : t ≤ 2 ^ 53) : int (ofNat t) = .ok (t : ℤ) := by
  rw [ofNat_eq h2, int, if_pos (Nat.cast_nonneg t)]
  simp

/-- What `evl run` writes: a line for each of the numbers `ts`. -/
def estimates (ts : List Nat) (e : Nat → Nat) : Text := save (ts.map fun t => displayEstimation (t, e t))

theorem mapM_ok {α β : Type} {f : α → Except PyError β} {g : α → β} :
    ∀ {l : List α}, (∀ x ∈ l, f x = .ok (g x)) → l.mapM f = .ok (l.map g)
  | [], _ => rfl
  | x :: l, h => by
    rw [List.mapM_cons, h x (by simp), mapM_ok (l := l) fun y hy => h y (by simp [hy])]
    rfl

theorem estimates_nil (e : Nat → Nat) : estimates [] e = [] := rfl

theorem readline_estimates (t : Nat) (ts : List Nat) (e : Nat → Nat) :
    readline (estimates (t :: ts) e) = (displayEstimation (t, e t) ++ ['\n'], estimates ts e) := by
  have h : '\n' ∉ displayEstimation (t, e t) := by
    simp only [displayEstimation, List.mem_append, not_or]
    exact ⟨⟨display_no (by decide), by decide⟩, display_no (by decide)⟩
  rw [estimates, List.map_cons, save, List.flatMap_cons, List.append_assoc, List.singleton_append,
    readline_line _ _ h]
  rfl

theorem statisticsLoop_eq {F : List (Nat → Nat)} (hF : F ≠ []) :
    ∀ (ts : List Nat) (fuel : Nat), ts.length < fuel → (∀ t ∈ ts, 0 < t ∧ t ≤ 2 ^ 53) →
      statisticsLoop fuel (F.map (estimates ts)) =
        .ok (ts.map fun t : Nat => ((t : ℤ), F.map fun e => relErr (e t) t))
  | _, 0, h, _ => absurd h (by omega)
  | [], fuel + 1, _, _ => by
    rw [statisticsLoop]
    have h : ((F.map (estimates [])).map fun fp => (readline fp).1).filter (fun line => line ≠ []) = [] := by
      rw [List.filter_eq_nil_iff]
      intro a ha
      simp only [List.map_map, List.mem_map, Function.comp_apply] at ha
      obtain ⟨e, _, rfl⟩ := ha
      simp [estimates_nil, readline]
    simp only [h]
    rfl
  | t :: ts, fuel + 1, hl, ht => by
    have ih := statisticsLoop_eq hF ts fuel (by simpa using hl) fun u hu => ht u (by simp [hu])
    obtain ⟨h1, h2⟩ := ht t (by simp)
    have e1 : ((F.map (estimates (t :: ts))).map fun fp => (readline fp).1).filter (fun line => line ≠ []) =
        F.map fun e => displayEstimation (t, e t) ++ ['\n'] := by
      rw [List.map_map, List.filter_eq_self.2]
      · exact List.map_congr_left fun e _ => by simp only [Function.comp_apply, readline_estimates]
      · intro a ha
        simp only [List.mem_map, Function.comp_apply] at ha
        obtain ⟨e, _, rfl⟩ := ha
        simp [readline_estimates]
    have e2 : ((F.map (estimates (t :: ts))).map fun fp => (readline fp).2) = F.map (estimates ts) := by
      rw [List.map_map]
      exact List.map_congr_left fun e _ => by simp only [Function.comp_apply, readline_estimates]
    have e3 : (F.map fun e => displayEstimation (t, e t) ++ ['\n']).mapM lineValues =
        .ok (F.map fun e => [ofNat t, ofNat (e t)]) := by
      rw [List.mapM_map, mapM_ok (g := fun e => [ofNat t, ofNat (e t)])]
      intro e _
      exact lineValues_eq t (e t)
    have e4 : (F.map fun e => [ofNat t, ofNat (e t)]).mapM relativeError =
        .ok (F.map fun e => relErr (e t) t) := by
      rw [List.mapM_map, mapM_ok (g := fun e => relErr (e t) t)]
      intro e _
      exact relativeError_eq h1 h2
    have e5 : item ((F.map fun e => [ofNat t, ofNat (e t)]).headD []) 0 = .ok (ofNat t) := by
      cases F with
      | nil => exact absurd rfl hF
      | cons e F => rfl
    have e6 : (F.map fun e => displayEstimation (t, e t) ++ ['\n']) ≠ [] := by
      simpa using hF
    rw [statisticsLoop, e1, e2, if_neg e6, e3]
    simp only [bind, Except.bind, e4, e5, int_ofNat h2, ih]
    rfl

theorem length_estimates (e : Nat → Nat) : ∀ ts, ts.length ≤ (estimates ts e).length
  | [] => by simp
  | t :: ts => by
    have := length_estimates e ts
    rw [estimates, List.map_cons, save, List.flatMap_cons, ← save, ← estimates]
    simp
    omega

/-- All rows of the table. -/
theorem statistics_eq (mean median std : List F64 → F64) {F : List (Nat → Nat)} (hF : F ≠ []) {ts : List Nat}
    (ht : ∀ t ∈ ts, 0 < t ∧ t ≤ 2 ^ 53) :
    calculateStatistics mean median std (F.map (estimates ts)) =
      .ok (ts.map fun t : Nat => (t : ℤ), ts.map fun t => mean (F.map fun e => relErr (e t) t),
        ts.map fun t => median (F.map fun e => relErr (e t) t),
        ts.map fun t => std (F.map fun e => relErr (e t) t)) := by
  have hl : ts.length < ((F.map (estimates ts)).map List.length).sum + 1 := by
    cases F with
    | nil => exact absurd rfl hF
    | cons e F =>
      have := length_estimates e ts
      simp only [List.map_cons, List.sum_cons]
      omega
  rw [calculateStatistics, statisticsLoop_eq hF ts _ hl ht]
  simp [bind, Except.bind, List.map_map, Function.comp_def, pure, Except.pure]

theorem abs_fin (q : ℚ) : abs (fin q) = fin |q| := by
  rw [abs]
  by_cases h : q < 0
  · simp [sign, h, F64.neg, h.ne, abs_of_neg h]
  · simp [sign, h, abs_of_nonneg (not_lt.1 h)]

/-- The relative error is computed accurately. -/
theorem relErr_close {e t : Nat} (he : e < 2 ^ 64) (h1 : 0 < t) (h2 : t ≤ 2 ^ 52) :
    ∃ x : ℚ, relErr e t = fin x ∧ |x - |(e : ℚ) - t| / t| ≤ |(e : ℚ) - t| / t / 2 ^ 50 := by
  have hbig : (2 : ℚ) ^ 70 ≤ 2 ^ 1023 := pow_le_pow_right₀ (by norm_num) (by norm_num)
  have heq : (e : ℚ) < 2 ^ 64 := by exact_mod_cast he
  have he0 : (0 : ℚ) ≤ e := Nat.cast_nonneg e
  have ht0 : (1 : ℚ) ≤ t := by exact_mod_cast h1
  have htq : (t : ℚ) ≤ 2 ^ 52 := by exact_mod_cast h2
  obtain ⟨a, ha⟩ : ∃ a : ℚ, a = rnd (e : ℚ) := ⟨_, rfl⟩
  obtain ⟨d, hd⟩ : ∃ d : ℚ, d = (e : ℚ) - t := ⟨_, rfl⟩
  -- the estimate as a double
  have k1 : ofNat e = fin a := by
    rw [ha, ofNat, round_fin _ (Or.inl rfl)]
    rw [abs_of_nonneg he0]
    refine le_trans ?_ hbig
    linarith
  have k2 : |a - e| ≤ |d| / 2 ^ 52 := by
    by_cases h : e ≤ 2 ^ 53
    · rw [ha, rnd_natCast h]
      simp only [sub_self, abs_zero]
      positivity
    · have h3 : (2 : ℚ) ^ 53 < e := by exact_mod_cast not_le.1 h
      have h4 := abs_rnd_sub_le_rel (K := ℚ) (x := (e : ℚ)) (by
        rw [abs_of_nonneg he0]
        have : (2 : ℚ) ^ (-1022 : ℤ) ≤ 2 ^ (0 : ℤ) := zpow_le_zpow_right₀ (by norm_num) (by norm_num)
        refine this.trans ?_
        rw [zpow_zero]
        linarith)
      rw [Rat.cast_id, ← ha, abs_of_nonneg he0] at h4
      have h5 : (e : ℚ) / 2 ≤ |d| := by
        rw [hd, abs_of_nonneg] <;> linarith
      refine h4.trans ?_
      norm_num at h5 ⊢
      linarith
  -- the difference
  have k3 : F64.sub (fin a) (fin t) = fin (rnd (a - t)) := by
    apply sub_fin_of
    refine le_trans ?_ hbig
    have h3 : |d| ≤ 2 ^ 65 := by
      rw [hd, abs_le]
      constructor <;> linarith
    have : a - t = (a - e) + d := by rw [hd]; ring
    rw [this]
    refine (abs_add_le _ _).trans ?_
    norm_num at k2 h3 ⊢
    linarith
  have k4 : |rnd (a - t) - d| ≤ |d| / 2 ^ 51 := by
    have h3 := rnd_sub_err (a := a) (b := t) (by rw [ha]; exact rnd_rnd _) (rnd_natCast (by omega))
    have h4 : a - t = (a - e) + d := by rw [hd]; ring
    have h5 : |a - t| ≤ |d| / 2 ^ 52 + |d| := by
      rw [h4]; exact (abs_add_le _ _).trans (by linarith)
    have h6 : rnd (a - t) - d = (rnd (a - t) - (a - t)) + (a - e) := by rw [hd]; ring
    rw [h6]
    refine (abs_add_le _ _).trans ?_
    have := abs_nonneg d
    norm_num at k2 h3 h5 ⊢
    linarith
  obtain ⟨b, hb⟩ : ∃ b : ℚ, b = |rnd (a - t)| := ⟨_, rfl⟩
  have hb0 : 0 ≤ b := by rw [hb]; exact abs_nonneg _
  have k5 : |b - (|d|)| ≤ |d| / 2 ^ 51 := by
    rw [hb]; exact (abs_abs_sub_abs_le_abs_sub _ _).trans k4
  have hd65 : |d| ≤ 2 ^ 65 := by
    rw [hd, abs_le]
    constructor <;> linarith
  have hbt : b / t ≤ 2 ^ 70 := by
    rw [div_le_iff₀ (by linarith)]
    rw [abs_le] at k5
    have : b ≤ 2 ^ 70 := by norm_num at k5 hd65 ⊢; linarith [k5.2]
    nlinarith
  refine ⟨rnd (b / t), ?_, ?_⟩
  · rw [relErr, k1, ofNat_eq (by omega : t ≤ 2 ^ 53), k3, abs_fin, ← hb]
    exact div_fin_nonneg hb0 (by linarith) (hbt.trans hbig)
  · rw [← hd]
    have k6 : |rnd (b / t) - b / t| ≤ b / t / 2 ^ 53 := by
      rcases eq_or_ne d 0 with h0 | h0
      · have : b = 0 := by
          rw [h0] at k5; simpa using k5
        rw [this]; simp [rnd_zero]
      · have hd1 : 1 ≤ |d| := by
          have h3 : ((e : ℤ) - t : ℤ) ≠ 0 := by
            intro h4; apply h0; rw [hd]; exact_mod_cast h4
          have h4 := Int.one_le_abs h3
          have : d = (((e : ℤ) - t : ℤ) : ℚ) := by rw [hd]; push_cast; ring
          rw [this]; exact_mod_cast h4
        have hb1 : 1 / 2 ≤ b := by
          rw [abs_le] at k5
          norm_num at k5 ⊢
          linarith [k5.1]
        have h3 : (2 : ℚ) ^ (-1022 : ℤ) ≤ b / t := by
          have h4 : (2 : ℚ) ^ (-1022 : ℤ) ≤ 2 ^ (-53 : ℤ) := zpow_le_zpow_right₀ (by norm_num) (by norm_num)
          refine h4.trans ?_
          rw [le_div_iff₀ (by linarith)]
          have : (2 : ℚ) ^ (-53 : ℤ) = 1 / 2 ^ 53 := by norm_num
          rw [this]
          linarith
        have h5 := abs_rnd_sub_le_rel (K := ℚ) (x := b / t) (by
          rw [abs_of_nonneg (div_nonneg hb0 (by linarith))]; exact h3)
        rwa [Rat.cast_id, abs_of_nonneg (div_nonneg hb0 (by linarith))] at h5
    have k7 : |b / t - |d| / t| ≤ |d| / t / 2 ^ 51 := by
      rw [← sub_div, abs_div, abs_of_pos (by linarith : (0 : ℚ) < t), div_right_comm]
      gcongr
    have hdt : 0 ≤ |d| / t := div_nonneg (abs_nonneg _) (by linarith)
    rw [abs_le] at *
    generalize b / t = u at *
    generalize |d| / t = v at *
    generalize rnd u = w at *
    norm_num at k6 k7 ⊢
    constructor <;> linarith

end HLL.Exp
