import Verif.Proofs.Experiment
import Verif.Props.Evaluation

/-!
# C81: the script of the experiments

`evaluation/exp.py` chooses the cardinalities of the second experiment and reads the results of `evl run`.
-/

namespace HLL
open Spec F64 Evl Exp

variable {cfg : Cfg} {ln : F64 → F64} {ords : Nat → IterOrder × IterOrder} {p : Nat}

namespace Exp

theorem cur_lt_max {M : ℤ} (hM : M ≤ 2 ^ 1023) {K : Nat} (h1 : ∀ k < K, cur k < M) : cur K < 2 ^ 1024 := by
  have hM' : (M : ℚ) ≤ 2 ^ 1023 := by
    have := (Int.cast_le (R := ℚ)).2 hM
    rwa [Int.cast_pow] at this
  have e : (2 : ℚ) ^ 1024 = 2 ^ 1023 * 2 := pow_succ _ _
  have h0 : (1 : ℚ) ≤ 2 ^ 1023 := one_le_pow₀ (by norm_num)
  rw [e]
  clear hM e
  generalize (2 : ℚ) ^ 1023 = B at *
  cases K with
  | zero => rw [cur]; linarith
  | succ k =>
    have h2 := h1 k (by omega)
    have h3 := (cur_succ k).2
    norm_num at h3
    linarith

theorem floor_cur_mono {j k : Nat} (h : j ≤ k) : ⌊cur j⌋ ≤ ⌊cur k⌋ := Int.floor_le_floor (cur_mono.monotone h)

/-- A list with the same elements as a set, in increasing order. -/
theorem generate_ok {M : ℤ} {K : Nat} (hK : cur K < 2 ^ 1024) (h1 : ∀ k < K, cur k < M) (h2 : (M : ℚ) ≤ cur K)
    (fuel : Nat) : generateCardinalities fuel M =
      if K < fuel then some (.ok (((Finset.Icc 0 K).image fun j => ⌊cur j⌋).sort (· ≤ ·))) else none := by
  have h := loop_eq hK h1 h2 fuel 0 ∅ (by omega)
  have e : ofNat 1 = fin (cur 0) := by rw [ofNat_eq (by norm_num)]; norm_num [cur]
  rw [generateCardinalities, ofDec_ratio, e, h]
  simp only [Nat.sub_zero, Finset.empty_union]
  split <;> rfl

end Exp

theorem Exp.cardinalities_of {M : ℤ} {K : Nat} (hK : cur K < 2 ^ 1024) (h1 : ∀ k < K, cur k < M) (h2 : (M : ℚ) ≤ cur K) :
    ∃ (K : Nat) (l : List ℤ) (z : ℤ),
    (∀ fuel, generateCardinalities fuel M = if K < fuel then some (.ok l) else none) ∧
    (∀ j : Nat, M ≤ 2 ^ j → K ≤ 101 * j) ∧
    l.Pairwise (· < ·) ∧ l.head? = some 1 ∧ l.getLast? = some z ∧ (M ≤ 1 → l = [1]) ∧
    M ≤ z ∧ (2 ≤ M → (z : ℚ) < 1.0071 * M) ∧ (∀ x ∈ l, 1 ≤ x ∧ (x ≠ z → x < M)) ∧
    (∃ y : Nat → ℚ, (∀ k ≤ K, k ≤ 2 ^ 40 → |y k - 1.007 ^ k| ≤ k / 2 ^ 50 * 1.007 ^ k) ∧
      ∀ x, x ∈ l ↔ ∃ k ≤ K, x = ⌊y k⌋) ∧
    ∀ a ∈ l, a < M → ∃ b ∈ l, a < b ∧ (b : ℚ) ≤ 1.0071 * (a + 1) := by
  obtain ⟨l, hl⟩ : ∃ l, l = ((Finset.Icc 0 K).image fun j => ⌊cur j⌋).sort (· ≤ ·) := ⟨_, rfl⟩
  have hmem : ∀ x, x ∈ l ↔ ∃ k ≤ K, x = ⌊cur k⌋ := by
    intro x
    rw [hl, Finset.mem_sort, Finset.mem_image]
    constructor
    · rintro ⟨k, hk, rfl⟩; exact ⟨k, (Finset.mem_Icc.1 hk).2, rfl⟩
    · rintro ⟨k, hk, rfl⟩; exact ⟨k, Finset.mem_Icc.2 ⟨by omega, hk⟩, rfl⟩
  have hsort : l.Pairwise (· < ·) := by
    rw [hl]; exact (Finset.sortedLT_sort _).pairwise
  have hz : ⌊cur K⌋ ∈ l := (hmem _).2 ⟨K, le_refl _, rfl⟩
  have hle : ∀ x ∈ l, x ≤ ⌊cur K⌋ := by
    intro x hx
    obtain ⟨k, hk, rfl⟩ := (hmem x).1 hx
    exact floor_cur_mono hk
  have hge : ∀ x ∈ l, 1 ≤ x := by
    intro x hx
    obtain ⟨k, hk, rfl⟩ := (hmem x).1 hx
    exact Int.le_floor.2 (by exact_mod_cast one_le_cur k)
  have h0 : (1 : ℤ) ∈ l := (hmem _).2 ⟨0, by omega, by simp [cur]⟩
  have hMz : M ≤ ⌊cur K⌋ := Int.le_floor.2 h2
  refine ⟨K, l, ⌊cur K⌋, fun fuel => by rw [hl]; exact generate_ok hK h1 h2 fuel, fun j hj => ?_, hsort, ?_, ?_,
    fun h3 => ?_, hMz, fun h3 => ?_, fun x hx => ⟨hge x hx, fun hne => ?_⟩, ⟨cur, fun k _ hk => cur_close k hk, hmem⟩,
    fun a ha hlt => ?_⟩
  · by_contra hc
    have h3 := h1 (101 * j) (by omega)
    have h4 := cur_ge j
    have h5 : (M : ℚ) ≤ 2 ^ j := by exact_mod_cast hj
    linarith
  · cases l with
    | nil => simp at h0
    | cons a l =>
      rcases List.mem_cons.1 h0 with h3 | h3
      · rw [List.head?_cons, h3]
      · have h4 := (List.pairwise_cons.1 hsort).1 1 h3
        have h5 := hge a (by simp)
        omega
  · have hne : l ≠ [] := List.ne_nil_of_mem hz
    rw [List.getLast?_eq_some_getLast hne]
    congr 1
    refine le_antisymm (hle _ (List.getLast_mem hne)) ?_
    obtain ⟨l', b, rfl⟩ : ∃ l' b, l = l' ++ [b] := ⟨_, _, (List.dropLast_append_getLast hne).symm⟩
    rw [List.getLast_append_singleton]
    rcases List.mem_append.1 hz with h3 | h3
    · exact ((List.pairwise_append.1 hsort).2.2 _ h3 b (by simp)).le
    · rw [List.mem_singleton.1 h3]
  · cases K with
    | zero => rw [hl]; simp [cur]
    | succ k =>
      have h4 := h1 0 (by omega)
      have h5 : (M : ℚ) ≤ 1 := by exact_mod_cast h3
      rw [cur] at h4
      linarith
  · cases K with
    | zero =>
      have h4 : (2 : ℚ) ≤ M := by exact_mod_cast h3
      rw [cur] at h2
      linarith
    | succ k =>
      have h4 := h1 k (by omega)
      have h5 := (cur_succ k).2
      have h6 := Int.floor_le (cur (k + 1))
      norm_num at h5 ⊢
      linarith
  · obtain ⟨k, hk, rfl⟩ := (hmem x).1 hx
    have hk' : k < K := lt_of_le_of_ne hk (by rintro rfl; exact hne rfl)
    exact Int.floor_lt.2 (h1 k hk')
  · -- the last index with this integer part
    have hex : ∃ d, ⌊cur d⌋ = a ∧ d < K ∧ a < ⌊cur (d + 1)⌋ := by
      obtain ⟨k, hk, rfl⟩ := (hmem a).1 ha
      by_contra hc
      have hall : ∀ d, k + d ≤ K → ⌊cur (k + d)⌋ = ⌊cur k⌋ := by
        intro d
        induction d with
        | zero => intro _; rfl
        | succ d ih =>
          intro hd
          have h3 := ih (by omega)
          by_contra hne
          refine hc ⟨k + d, h3, by omega, ?_⟩
          have := floor_cur_mono (show k ≤ k + d + 1 by omega)
          exact lt_of_le_of_ne this (fun e => hne (by rw [← add_assoc, ← e]))
      have := hall (K - k) (by omega)
      rw [show k + (K - k) = K by omega] at this
      omega
    obtain ⟨d, hd1, hd2, hd3⟩ := hex
    refine ⟨_, (hmem _).2 ⟨d + 1, hd2, rfl⟩, hd3, ?_⟩
    have h4 := (cur_succ d).2
    have h5 := Int.floor_le (cur (d + 1))
    have h6 := Int.lt_floor_add_one (cur d)
    rw [hd1] at h6
    norm_num at h4 ⊢
    linarith

/-- **C81**, `generate_cardinalities`: for every `max_cardinality` up to `2^1023` the loop stops, after at
most `101 j` steps if the maximum is at most `2^j`.  The result is a strictly increasing list of positive
integers that starts with 1; all but the last are below the maximum, the last is not, and exceeds the
maximum by less than 0.71 %.  The elements are the integer parts of a geometric series with ratio 1.007, up to
rounding errors; after every element `a` below the maximum there is another one of at most
`1.0071 (a + 1)`. -/
theorem C81_cardinalities {M : ℤ} (hM : M ≤ 2 ^ 1023) : ∃ (K : Nat) (l : List ℤ) (z : ℤ),
    (∀ fuel, generateCardinalities fuel M = if K < fuel then some (.ok l) else none) ∧
    (∀ j : Nat, M ≤ 2 ^ j → K ≤ 101 * j) ∧
    l.Pairwise (· < ·) ∧ l.head? = some 1 ∧ l.getLast? = some z ∧ (M ≤ 1 → l = [1]) ∧
    M ≤ z ∧ (2 ≤ M → (z : ℚ) < 1.0071 * M) ∧ (∀ x ∈ l, 1 ≤ x ∧ (x ≠ z → x < M)) ∧
    (∃ y : Nat → ℚ, (∀ k ≤ K, k ≤ 2 ^ 40 → |y k - 1.007 ^ k| ≤ k / 2 ^ 50 * 1.007 ^ k) ∧
      ∀ x, x ∈ l ↔ ∃ k ≤ K, x = ⌊y k⌋) ∧
    ∀ a ∈ l, a < M → ∃ b ∈ l, a < b ∧ (b : ℚ) ≤ 1.0071 * (a + 1) := by
  obtain ⟨K, h1, h2⟩ := exists_first (M : ℚ)
  have hK := cur_lt_max hM h1
  exact cardinalities_of hK h1 h2

/-- **C81**: for a maximum from `2^1024` on, the values overflow and the script fails with an
`OverflowError`. -/
theorem C81_overflow {M : ℤ} (hM : 2 ^ 1024 ≤ M) : ∃ K : Nat, ∀ fuel,
    generateCardinalities fuel M = if K < fuel then some (.error .OverflowError) else none := by
  obtain ⟨K, h1, h2⟩ := exists_first (2 ^ 1024 : ℚ)
  have hM' : (2 : ℚ) ^ 1024 ≤ M := by
    have := (Int.cast_le (R := ℚ)).2 hM
    rwa [Int.cast_pow] at this
  have h0 : (1 : ℚ) < 2 ^ 1024 := one_lt_pow₀ (by norm_num) (by norm_num)
  cases K with
  | zero => rw [cur] at h2; exact absurd h2 (not_le.2 h0)
  | succ K =>
    refine ⟨K + 1, fun fuel => ?_⟩
    have h := loop_overflow (M := M) h2 (h1 K (by omega)) (fun k hk => lt_of_lt_of_le (h1 k (by omega)) hM')
      fuel 0 ∅ (by omega)
    have e : ofNat 1 = fin (cur 0) := by rw [ofNat_eq (by norm_num)]; norm_num [cur]
    rw [generateCardinalities, ofDec_ratio, e, h]
    simp only [Nat.sub_zero]
    split <;> rfl

/-- **C81**, the limit: there is a largest maximum `L` for which `generate_cardinalities` works, less than 0.72 % below
`2^1024`. -/
theorem C81_limit : ∃ L : ℤ, L < 2 ^ 1024 ∧ (2 : ℚ) ^ 1024 < 1.0072 * L ∧
    (∀ M ≤ L, ∃ (K : Nat) (l : List ℤ) (z : ℤ),
      (∀ fuel, generateCardinalities fuel M = if K < fuel then some (.ok l) else none) ∧
      (∀ j : Nat, M ≤ 2 ^ j → K ≤ 101 * j) ∧
      l.Pairwise (· < ·) ∧ l.head? = some 1 ∧ l.getLast? = some z ∧ (M ≤ 1 → l = [1]) ∧
      M ≤ z ∧ (2 ≤ M → (z : ℚ) < 1.0071 * M) ∧ (∀ x ∈ l, 1 ≤ x ∧ (x ≠ z → x < M)) ∧
      (∃ y : Nat → ℚ, (∀ k ≤ K, k ≤ 2 ^ 40 → |y k - 1.007 ^ k| ≤ k / 2 ^ 50 * 1.007 ^ k) ∧
        ∀ x, x ∈ l ↔ ∃ k ≤ K, x = ⌊y k⌋) ∧
      ∀ a ∈ l, a < M → ∃ b ∈ l, a < b ∧ (b : ℚ) ≤ 1.0071 * (a + 1)) ∧
    ∀ M, L < M → ∃ K : Nat, ∀ fuel,
      generateCardinalities fuel M = if K < fuel then some (.error .OverflowError) else none := by
  obtain ⟨K, h1, h2⟩ := exists_first (2 ^ 1024 : ℚ)
  have h0 : (10 ^ 9 : ℚ) < 2 ^ 1024 := by
    calc (10 ^ 9 : ℚ) < 2 ^ 30 := by norm_num
      _ ≤ 2 ^ 1024 := pow_le_pow_right₀ (by norm_num) (by norm_num)
  cases K with
  | zero =>
    rw [cur] at h2
    generalize (2 : ℚ) ^ 1024 = B at *
    linarith
  | succ K =>
    have hK := h1 K (by omega)
    have hs := (cur_succ K).2
    have hfl := Int.lt_floor_add_one (cur K)
    refine ⟨⌊cur K⌋, ?_, ?_, fun M hM => ?_, fun M hM => ⟨K + 1, fun fuel => ?_⟩⟩
    · rw [Int.floor_lt]
      push_cast
      exact hK
    · clear h1 hK
      generalize (2 : ℚ) ^ 1024 = B at *
      norm_num at hs ⊢
      linarith
    · obtain ⟨k, k1, k2⟩ := exists_first (M : ℚ)
      refine cardinalities_of (lt_of_le_of_lt (cur_mono.monotone ?_) hK) k1 k2
      by_contra hc
      exact absurd (k1 K (by omega)) (not_lt.2 (Int.le_floor.1 hM))
    · have hM' : cur K < M := Int.floor_lt.1 hM
      have h := loop_overflow (M := M) h2 hK (fun k hk => lt_of_le_of_lt (cur_mono.monotone (by omega)) hM') fuel 0 ∅ (by omega)
      have e : ofNat 1 = fin (cur 0) := by rw [ofNat_eq (by norm_num)]; norm_num [cur]
      rw [generateCardinalities, ofDec_ratio, e, h]
      simp only [Nat.sub_zero]
      split <;> rfl

/-- **C81**, `calculate_statistics`: from one or more files of `evl run`, with lines for the same numbers `ts`,
the script makes a table with a row for each of these numbers, and computes mean, median and standard
deviation of the list of relative errors, one per file.  Nothing is raised. -/
theorem C81_statistics (mean median std : List F64 → F64) {F : List (Nat → Nat)} (hF : F ≠ []) {ts : List Nat}
    (ht : ∀ t ∈ ts, 0 < t ∧ t ≤ 2 ^ 52) (hF64 : ∀ e ∈ F, ∀ t ∈ ts, e t < 2 ^ 64) :
    ∃ x : Nat → Nat → ℚ,
      (∀ e ∈ F, ∀ t ∈ ts, |x (e t) t - |(e t : ℚ) - t| / t| ≤ |(e t : ℚ) - t| / t / 2 ^ 50) ∧
      calculateStatistics mean median std
          (F.map fun e => (String.join (ts.map fun t => s!"{t} {e t}\n")).toList) =
        .ok (ts.map fun t : Nat => (t : ℤ), ts.map fun t => mean (F.map fun e => fin (x (e t) t)),
          ts.map fun t => median (F.map fun e => fin (x (e t) t)),
          ts.map fun t => std (F.map fun e => fin (x (e t) t))) := by
  have hfile : (fun e : Nat → Nat => (String.join (ts.map fun t => s!"{t} {e t}\n")).toList) = estimates ts := by
    funext e
    have := lines_eq (ts.map fun t => (t, e t))
    rw [List.map_map, List.map_map] at this
    exact this.symm
  have hx : ∀ e ∈ F, ∀ t ∈ ts, relErr (e t) t = fin (relErr (e t) t).val ∧
      |(relErr (e t) t).val - |(e t : ℚ) - t| / t| ≤ |(e t : ℚ) - t| / t / 2 ^ 50 := by
    intro e he t htm
    obtain ⟨y, h1, h2⟩ := relErr_close (hF64 e he t htm) (ht t htm).1 (ht t htm).2
    rw [h1]
    exact ⟨rfl, h2⟩
  refine ⟨fun e t => (relErr e t).val, fun e he t htm => (hx e he t htm).2, ?_⟩
  have hrow : ∀ t ∈ ts, (F.map fun e => relErr (e t) t) = F.map fun e => fin (relErr (e t) t).val :=
    fun t htm => List.map_congr_left fun e he => (hx e he t htm).1
  rw [hfile, statistics_eq mean median std hF fun t htm =>
    ⟨(ht t htm).1, (ht t htm).2.trans (by norm_num)⟩]
  have hc : ∀ f : List F64 → F64, (ts.map fun t => f (F.map fun e => relErr (e t) t)) =
      ts.map fun t => f (F.map fun e => fin (relErr (e t) t).val) := fun f =>
    List.map_congr_left fun t htm => by rw [hrow t htm]
  rw [hc mean, hc median, hc std]

/-! ## The second experiment from beginning to end -/

namespace Exp

theorem toString_cast (t : Nat) : toString (t : ℤ) = toString t := rfl

/-- The file of cardinalities in terms of natural numbers. -/
theorem file_eq (ts : List Nat) :
    cardinalitiesFile (ts.map fun t : Nat => (t : ℤ)) =
      List.intercalate ['\n'] (ts.map fun t => (toString t).toList) := by
  rw [cardinalitiesFile, List.map_map]
  rfl

theorem truncU64_lt (x : F64) : truncU64 x < 2 ^ 64 := by
  unfold truncU64
  split
  · norm_num
  · split <;> norm_num
  · norm_num
  · exact lt_of_le_of_lt (min_le_right _ _) (by norm_num)

/-- The cardinalities as natural numbers. -/
theorem cardinalities_nat {M : ℤ} (hM : M ≤ 2 ^ 51) : ∃ (ts : List Nat) (fuel : Nat),
    generateCardinalities fuel M = some (.ok (ts.map fun t : Nat => (t : ℤ))) ∧ ts.Pairwise (· < ·) ∧
      ∀ t ∈ ts, 0 < t ∧ t ≤ 2 ^ 52 := by
  obtain ⟨K, l, z, h1, -, h3, -, h5, h0, h6, h7, h8, -, -⟩ := C81_cardinalities (M := M)
    (hM.trans (pow_le_pow_right₀ (by norm_num) (by norm_num)))
  have hl : (l.map Int.toNat).map (fun t : Nat => (t : ℤ)) = l := by
    rw [List.map_map]
    conv_rhs => rw [← List.map_id l]
    exact List.map_congr_left fun x hx => Int.toNat_of_nonneg (by have := (h8 x hx).1; omega)
  refine ⟨l.map Int.toNat, K + 1, ?_, ?_, ?_⟩
  · rw [h1, if_pos (by omega), hl]
  · rw [List.pairwise_map]
    refine h3.imp_of_mem fun {a b} ha hb hab => ?_
    have := (h8 a ha).1
    omega
  · intro t ht
    obtain ⟨x, hx, rfl⟩ := List.mem_map.1 ht
    obtain ⟨k1, k2⟩ := h8 x hx
    refine ⟨by omega, ?_⟩
    have hz : z ≤ 2 ^ 52 := by
      by_cases h2 : 2 ≤ M
      · have h9 := h7 h2
        have hMq : (M : ℚ) ≤ 2 ^ 51 := by exact_mod_cast hM
        have : (z : ℚ) ≤ 2 ^ 52 := by norm_num at h9 hMq ⊢; linarith
        exact_mod_cast this
      · rw [h0 (by omega)] at h5
        have : (1 : ℤ) = z := by simpa using h5
        rw [← this]; norm_num
    by_cases e : x = z
    · subst e; omega
    · have := k2 e; omega

theorem mapM_all {α β : Type} {f : α → R β} {g : α → β} :
    ∀ {l : List α}, (∀ x ∈ l, f x = .ok (g x)) → l.mapM f = .ok (l.map g)
  | [], _ => rfl
  | x :: l, h => by
    rw [List.mapM_cons, h x (by simp), mapM_all (l := l) fun y hy => h y (by simp [hy])]
    rfl

/-- The table made from the files of several runs. -/
theorem table_of {α : Type} (mean median std : List F64 → F64) {A : List α} (hA : A ≠ []) {run : α → R Text}
    {E : α → Nat → Nat} {ts : List Nat} (ht : ∀ t ∈ ts, 0 < t ∧ t ≤ 2 ^ 52) (hE : ∀ a t, E a t < 2 ^ 64)
    (h : ∀ a ∈ A, run a = .ok (String.join (ts.map fun t => s!"{t} {E a t}\n")).toList) :
    ∃ (files : List Text) (x : α → ℤ → ℚ), A.mapM run = .ok files ∧
      calculateStatistics mean median std files =
        .ok (ts.map fun t : Nat => (t : ℤ),
          ts.map fun t : Nat => mean (A.map fun a => fin (x a t)),
          ts.map fun t : Nat => median (A.map fun a => fin (x a t)),
          ts.map fun t : Nat => std (A.map fun a => fin (x a t))) ∧
      ∀ a ∈ A, ∀ t ∈ ts, |x a t - |(E a t : ℚ) - t| / t| ≤ |(E a t : ℚ) - t| / t / 2 ^ 50 := by
  obtain ⟨x, hx, hs⟩ := C81_statistics mean median std (F := A.map E) (by simpa using hA) ht (by
    intro e he t _
    obtain ⟨a, _, rfl⟩ := List.mem_map.1 he
    exact hE a t)
  refine ⟨_, fun a t => x (E a t.toNat) t.toNat, mapM_all h, ?_, ?_⟩
  · rw [List.map_map] at hs
    simp only [List.map_map, Function.comp_def, Int.toNat_natCast] at hs ⊢
    exact hs
  · intro a ha t ht
    exact hx (E a) (List.mem_map_of_mem ha) t ht

/-- Lines numbered from 1. -/
theorem lines_succ (N : Nat) (f : Nat → String) :
    (List.range N).map (fun k => f (k + 1)) = ((List.range N).map (· + 1)).map f := by
  rw [List.map_map]; rfl

end Exp

section
variable (mean median std : List F64 → F64)

/-- **C81**, the second experiment with `HyperLogLogPlus`, from beginning to end: `prepare` writes a file of
cardinalities for any maximum up to `2^51`; `evl run` reads it and writes a file for every run, whatever
the random numbers are; `plot` reads these files and computes a table with a row for each cardinality `t`.
The row is computed from the relative errors of the (truncated) counts after `t` random numbers. -/
theorem C81_plus_cardinalities (hcfg : cfg.usizeBits = 64) (c : Serde.Codec U64)
    (h1 : 4 ≤ p) (h2 : p ≤ 18) {M : ℤ} (hM : M ≤ 2 ^ 51) (rngs : List (Nat → U64)) (hr : rngs ≠ []) :
    ∃ (ts : List Nat) (fuel : Nat) (files : List Text) (x : (Nat → U64) → ℤ → ℚ),
      generateCardinalities fuel M = some (.ok (ts.map fun t : Nat => (t : ℤ))) ∧
      rngs.mapM (fun rng => runPlusAt cfg ln c ords rng (toString p).toList
        (cardinalitiesFile (ts.map fun t : Nat => (t : ℤ)))) = .ok files ∧
      calculateStatistics mean median std files =
        .ok (ts.map fun t : Nat => (t : ℤ), ts.map fun t : Nat => mean (rngs.map fun rng => fin (x rng t)),
          ts.map fun t : Nat => median (rngs.map fun rng => fin (x rng t)),
          ts.map fun t : Nat => std (rngs.map fun rng => fin (x rng t))) ∧
      ∀ rng ∈ rngs, ∀ t ∈ ts, ∀ e : Nat, e = truncU64 (plusCount ln (Plus.biasOf cfg.search) p
          ((Finset.range t).image fun j => (rng j).toNat)) →
        |x rng t - |(e : ℚ) - t| / t| ≤ |(e : ℚ) - t| / t / 2 ^ 50 := by
  obtain ⟨ts, fuel, k1, k2, k3⟩ := cardinalities_nat hM
  obtain ⟨files, x, k4, k5, k6⟩ := table_of mean median std hr
    (run := fun rng => runPlusAt cfg ln c ords rng (toString p).toList
      (cardinalitiesFile (ts.map fun t : Nat => (t : ℤ))))
    (E := fun rng t => truncU64 (plusCount ln (Plus.biasOf cfg.search) p
      ((Finset.range t).image fun j => (rng j).toNat))) k3 (fun _ _ => truncU64_lt _) (by
      intro rng _
      rw [file_eq, C78_plus_cardinalities hcfg c h1 h2 rng ts fun t ht =>
        lt_of_le_of_lt (k3 t ht).2 (by norm_num)]
      exact congrArg (fun l => Except.ok (String.join l).toList)
        (lines_sorted ts (k2.imp le_of_lt) (f := fun t => s!"{t} {truncU64 (plusCount ln
          (Plus.biasOf cfg.search) p ((Finset.range t).image fun j => (rng j).toNat))}\n")))
  refine ⟨ts, fuel, files, x, k1, k4, k5, ?_⟩
  rintro rng hrng t ht e rfl
  exact k6 rng hrng t ht

/-- **C81**: the same with `HyperLogLogPF`. -/
theorem C81_pf_cardinalities (hcfg : cfg.usizeBits = 64) (c : Serde.Codec U32)
    (h1 : 4 ≤ p) (h2 : p ≤ 16) {M : ℤ} (hM : M ≤ 2 ^ 51) (rngs : List (Nat → U32)) (hr : rngs ≠ []) :
    ∃ (ts : List Nat) (fuel : Nat) (files : List Text) (x : (Nat → U32) → ℤ → ℚ),
      generateCardinalities fuel M = some (.ok (ts.map fun t : Nat => (t : ℤ))) ∧
      rngs.mapM (fun rng => runAt cfg ln c ords rng (toString p).toList
        (cardinalitiesFile (ts.map fun t : Nat => (t : ℤ)))) = .ok files ∧
      calculateStatistics mean median std files =
        .ok (ts.map fun t : Nat => (t : ℤ), ts.map fun t : Nat => mean (rngs.map fun rng => fin (x rng t)),
          ts.map fun t : Nat => median (rngs.map fun rng => fin (x rng t)),
          ts.map fun t : Nat => std (rngs.map fun rng => fin (x rng t))) ∧
      ∀ rng ∈ rngs, ∀ t ∈ ts, ∀ e : Nat, e = truncU64 (pfCount ln p
          ((Finset.range t).image fun j => (rng j).toNat)) →
        |x rng t - |(e : ℚ) - t| / t| ≤ |(e : ℚ) - t| / t / 2 ^ 50 := by
  obtain ⟨ts, fuel, k1, k2, k3⟩ := cardinalities_nat hM
  obtain ⟨files, x, k4, k5, k6⟩ := table_of mean median std hr
    (run := fun rng => runAt cfg ln c ords rng (toString p).toList
      (cardinalitiesFile (ts.map fun t : Nat => (t : ℤ))))
    (E := fun rng t => truncU64 (pfCount ln p ((Finset.range t).image fun j => (rng j).toNat))) k3
    (fun _ _ => truncU64_lt _) (by
      intro rng _
      rw [file_eq, C78_pf_cardinalities hcfg c h1 h2 rng ts fun t ht =>
        lt_of_le_of_lt (k3 t ht).2 (by norm_num)]
      exact congrArg (fun l => Except.ok (String.join l).toList)
        (lines_sorted ts (k2.imp le_of_lt) (f := fun t => s!"{t} {truncU64 (pfCount ln
          p ((Finset.range t).image fun j => (rng j).toNat))}\n")))
  refine ⟨ts, fuel, files, x, k1, k4, k5, ?_⟩
  rintro rng hrng t ht e rfl
  exact k6 rng hrng t ht

/-- **C81**, the first experiment with `HyperLogLogPlus`: from files of `N` hashes each, `evl run` and `plot`
make a table with rows for `1, …, N`, computed from the relative errors of the (truncated) counts after each
hash. -/
theorem C81_plus_hashes (hcfg : cfg.usizeBits = 64) (c : Serde.Codec U64) (h1 : 4 ≤ p) (h2 : p ≤ 18)
    {N : Nat} (hN : N ≤ 2 ^ 52) (Hs : List (List U64)) (hHs : Hs ≠ []) (hl : ∀ H ∈ Hs, H.length = N) :
    ∃ (files : List Text) (x : List U64 → ℤ → ℚ),
      Hs.mapM (fun H => runPlus cfg ln c ords (toString p).toList (generate (H.map BitVec.toNat))) = .ok files ∧
      calculateStatistics mean median std files =
        .ok (((List.range N).map (· + 1)).map fun t : Nat => (t : ℤ),
          ((List.range N).map (· + 1)).map fun t : Nat => mean (Hs.map fun H => fin (x H t)),
          ((List.range N).map (· + 1)).map fun t : Nat => median (Hs.map fun H => fin (x H t)),
          ((List.range N).map (· + 1)).map fun t : Nat => std (Hs.map fun H => fin (x H t))) ∧
      ∀ H ∈ Hs, ∀ t : Nat, 1 ≤ t → t ≤ N → ∀ e : Nat, e = truncU64 (plusCount ln (Plus.biasOf cfg.search) p
          ((H.take t).map BitVec.toNat).toFinset) →
        |x H t - |(e : ℚ) - t| / t| ≤ |(e : ℚ) - t| / t / 2 ^ 50 := by
  have hmem : ∀ t, t ∈ (List.range N).map (· + 1) ↔ 1 ≤ t ∧ t ≤ N := by
    intro t
    simp only [List.mem_map, List.mem_range]
    exact ⟨fun ⟨a, h, e⟩ => by omega, fun h => ⟨t - 1, by omega, by omega⟩⟩
  obtain ⟨files, x, k4, k5, k6⟩ := table_of mean median std hHs
    (run := fun H => runPlus cfg ln c ords (toString p).toList (generate (H.map BitVec.toNat)))
    (E := fun H t => truncU64 (plusCount ln (Plus.biasOf cfg.search) p
      ((H.take t).map BitVec.toNat).toFinset)) (ts := (List.range N).map (· + 1))
    (fun t ht => by rw [hmem] at ht; omega) (fun _ _ => truncU64_lt _) (by
      intro H hH
      rw [C78_plus_hashes hcfg c h1 h2 H (by rw [hl H hH]; exact lt_of_le_of_lt hN (by norm_num)), hl H hH]
      exact congrArg (fun l => Except.ok (String.join l).toList) (lines_succ N fun t =>
        s!"{t} {truncU64 (plusCount ln (Plus.biasOf cfg.search) p ((H.take t).map BitVec.toNat).toFinset)}\n"))
  refine ⟨files, x, k4, k5, ?_⟩
  rintro H hH t ht1 ht2 e rfl
  exact k6 H hH t ((hmem t).2 ⟨ht1, ht2⟩)

/-- **C81**: the same with `HyperLogLogPF`. -/
theorem C81_pf_hashes (hcfg : cfg.usizeBits = 64) (c : Serde.Codec U32) (h1 : 4 ≤ p) (h2 : p ≤ 16)
    {N : Nat} (hN : N ≤ 2 ^ 52) (Hs : List (List U32)) (hHs : Hs ≠ []) (hl : ∀ H ∈ Hs, H.length = N) :
    ∃ (files : List Text) (x : List U32 → ℤ → ℚ),
      Hs.mapM (fun H => Evl.run cfg ln c ords (toString p).toList (generate (H.map BitVec.toNat))) = .ok files ∧
      calculateStatistics mean median std files =
        .ok (((List.range N).map (· + 1)).map fun t : Nat => (t : ℤ),
          ((List.range N).map (· + 1)).map fun t : Nat => mean (Hs.map fun H => fin (x H t)),
          ((List.range N).map (· + 1)).map fun t : Nat => median (Hs.map fun H => fin (x H t)),
          ((List.range N).map (· + 1)).map fun t : Nat => std (Hs.map fun H => fin (x H t))) ∧
      ∀ H ∈ Hs, ∀ t : Nat, 1 ≤ t → t ≤ N → ∀ e : Nat, e = truncU64 (pfCount ln p
          ((H.take t).map BitVec.toNat).toFinset) →
        |x H t - |(e : ℚ) - t| / t| ≤ |(e : ℚ) - t| / t / 2 ^ 50 := by
  have hmem : ∀ t, t ∈ (List.range N).map (· + 1) ↔ 1 ≤ t ∧ t ≤ N := by
    intro t
    simp only [List.mem_map, List.mem_range]
    exact ⟨fun ⟨a, h, e⟩ => by omega, fun h => ⟨t - 1, by omega, by omega⟩⟩
  obtain ⟨files, x, k4, k5, k6⟩ := table_of mean median std hHs
    (run := fun H => Evl.run cfg ln c ords (toString p).toList (generate (H.map BitVec.toNat)))
    (E := fun H t => truncU64 (pfCount ln p ((H.take t).map BitVec.toNat).toFinset))
    (ts := (List.range N).map (· + 1))
    (fun t ht => by rw [hmem] at ht; omega) (fun _ _ => truncU64_lt _) (by
      intro H hH
      rw [C78_pf_hashes hcfg c h1 h2 H (by rw [hl H hH]; exact lt_of_le_of_lt hN (by norm_num)), hl H hH]
      exact congrArg (fun l => Except.ok (String.join l).toList) (lines_succ N fun t =>
        s!"{t} {truncU64 (pfCount ln p ((H.take t).map BitVec.toNat).toFinset)}\n"))
  refine ⟨files, x, k4, k5, ?_⟩
  rintro H hH t ht1 ht2 e rfl
  exact k6 H hH t ((hmem t).2 ⟨ht1, ht2⟩)

end

/-! ## What goes wrong with other files -/

namespace Exp

theorem mapM_error {α β : Type} {f : α → Except PyError β} {x : α} {err : PyError} (hx : f x = .error err) :
    ∀ {A : List α} {B : List α}, (∀ a ∈ A, ∃ b, f a = .ok b) → (A ++ x :: B).mapM f = .error err
  | [], B, _ => by rw [List.nil_append, List.mapM_cons, hx]; rfl
  | a :: A, B, h => by
    obtain ⟨b, hb⟩ := h a (by simp)
    rw [List.cons_append, List.mapM_cons, hb, mapM_error hx (A := A) fun y hy => h y (by simp [hy])]
    rfl

theorem readline_join (a : Nat) (l : List Nat) :
    (readline (cardinalitiesFile ((a :: l).map fun t : Nat => (t : ℤ)))).1 =
      display a ++ (if l = [] then [] else ['\n']) := by
  have hn : '\n' ∉ display a := display_no (by decide)
  rw [file_eq]
  cases l with
  | nil =>
    have : ∀ l : Text, '\n' ∉ l → readline l = (l, []) := by
      intro l
      induction l with
      | nil => intro _; rfl
      | cons c l ih =>
        intro h
        rw [List.mem_cons, not_or] at h
        rw [readline, if_neg (fun e => h.1 e.symm), ih h.2]
    simp only [List.map_cons, List.map_nil, List.intercalate_singleton]
    rw [← display_eq, this _ hn]
    simp
  | cons b l =>
    rw [List.map_cons, List.map_cons, List.intercalate_cons_cons, List.append_assoc, List.singleton_append,
      ← display_eq, readline_line _ _ hn]
    simp

theorem lineValues_one (a : Nat) (l : List Nat) :
    lineValues (display a ++ (if l = [] then [] else ['\n'])) = .ok [ofNat a] := by
  have hd : ∀ c ∈ display a, c.isDigit = true := fun c hc => display_isDigit hc
  have h1 : ' ' ∉ display a ++ (if l = [] then [] else ['\n']) := by
    rw [List.mem_append, not_or]
    refine ⟨display_no (by decide), ?_⟩
    split <;> decide
  have h2 : strip (display a ++ (if l = [] then [] else ['\n'])) = display a := by
    split
    · rw [List.append_nil, strip_digits hd]
    · rw [strip_digits_nl hd (display_ne_nil a)]
  rw [lineValues, List.splitOn_eq_singleton h1, List.mapM_cons, float_of_strip h2]
  rfl

theorem estimates_eq (ts : List Nat) (e : Nat → Nat) :
    (String.join (ts.map fun t => s!"{t} {e t}\n")).toList = estimates ts e := by
  have := lines_eq (ts.map fun t => (t, e t))
  rw [List.map_map, List.map_map] at this
  exact this.symm

end Exp

section
variable (mean median std : List F64 → F64)

/-- **C81**: `prepare` writes the file of cardinalities as `cardinalities.dat`.  If the results are written to
the same directory, `plot` takes it for a file of results, and fails with an `IndexError`, at
whatever position it is among the other files. -/
theorem C81_same_directory (A B : List (Nat → Nat)) {t a : Nat} (ts l : List Nat) (h1 : 0 < t) (h2 : t ≤ 2 ^ 52) :
    calculateStatistics mean median std
      ((A.map fun e => (String.join ((t :: ts).map fun t => s!"{t} {e t}\n")).toList) ++
        cardinalitiesFile ((a :: l).map fun t : Nat => (t : ℤ)) ::
        B.map fun e => (String.join ((t :: ts).map fun t => s!"{t} {e t}\n")).toList) = .error .IndexError := by
  simp only [estimates_eq]
  obtain ⟨x, hx⟩ : ∃ x, x = display a ++ (if l = [] then [] else ['\n']) := ⟨_, rfl⟩
  have hx0 : x ≠ [] := by rw [hx]; simp [display_ne_nil]
  have hrd := readline_join a l
  rw [← hx] at hrd
  have hlv := lineValues_one a l
  rw [← hx] at hlv
  obtain ⟨C, hC⟩ : ∃ C, C = cardinalitiesFile ((a :: l).map fun t : Nat => (t : ℤ)) := ⟨_, rfl⟩
  rw [← hC] at hrd ⊢
  obtain ⟨g, hg⟩ : ∃ g : (Nat → Nat) → Text, g = fun e => displayEstimation (t, e t) ++ ['\n'] := ⟨_, rfl⟩
  have hlines : ((A.map (estimates (t :: ts)) ++ C :: B.map (estimates (t :: ts))).map
      fun fp => (readline fp).1).filter (fun line => line ≠ []) = A.map g ++ x :: B.map g := by
    rw [List.filter_eq_self.2]
    · simp only [List.map_append, List.map_cons, List.map_map, hrd]
      have : ((fun fp => (readline fp).1) ∘ estimates (t :: ts)) = g := by
        funext e; simp only [Function.comp_apply, readline_estimates, hg]
      rw [this]
    · intro y hy
      simp only [List.map_append, List.map_cons, List.map_map, hrd, List.mem_append, List.mem_cons,
        List.mem_map, Function.comp_apply, readline_estimates] at hy
      rcases hy with ⟨e, _, rfl⟩ | rfl | ⟨e, _, rfl⟩
      · simp
      · simpa using hx0
      · simp
  obtain ⟨v, hv⟩ : ∃ v : (Nat → Nat) → List F64, v = fun e => [ofNat t, ofNat (e t)] := ⟨_, rfl⟩
  have hvals : (A.map g ++ x :: B.map g).mapM lineValues = .ok (A.map v ++ [ofNat a] :: B.map v) := by
    have hg' : ∀ e, lineValues (g e) = .ok (v e) := by
      intro e; rw [hg, hv]; exact lineValues_eq t (e t)
    have hl1 : ∀ B : List (Nat → Nat), (B.map g).mapM lineValues = .ok (B.map v) := by
      intro B
      rw [List.mapM_map, Exp.mapM_ok (g := v)]
      intro e _; exact hg' e
    rw [List.mapM_append, hl1, List.mapM_cons, hlv, hl1]
    rfl
  have herr : (A.map v ++ [ofNat a] :: B.map v).mapM relativeError = .error .IndexError := by
    apply mapM_error (x := [ofNat a])
    · rfl
    · intro y hy
      obtain ⟨e, _, rfl⟩ := List.mem_map.1 hy
      rw [hv]
      exact ⟨_, relativeError_eq h1 (h2.trans (by norm_num))⟩
  have hne : A.map g ++ x :: B.map g ≠ [] := by simp
  rw [calculateStatistics, statisticsLoop, hlines, if_neg hne, hvals]
  simp only [bind, Except.bind, herr]

/-- **C81**: a cardinality 0, which `generate_cardinalities` does not produce, would make the script fail with
a `ZeroDivisionError`. -/
theorem C81_zero (F : List (Nat → Nat)) (hF : F ≠ []) (ts : List Nat) :
    calculateStatistics mean median std
      (F.map fun e => (String.join ((0 :: ts).map fun t => s!"{t} {e t}\n")).toList) =
        .error .ZeroDivisionError := by
  simp only [estimates_eq]
  obtain ⟨g, hg⟩ : ∃ g : (Nat → Nat) → Text, g = fun e => displayEstimation (0, e 0) ++ ['\n'] := ⟨_, rfl⟩
  have hlines : ((F.map (estimates (0 :: ts))).map
      fun fp => (readline fp).1).filter (fun line => line ≠ []) = F.map g := by
    rw [List.filter_eq_self.2]
    · rw [List.map_map]
      exact List.map_congr_left fun e _ => by simp only [Function.comp_apply, readline_estimates, hg]
    · intro y hy
      simp only [List.map_map, List.mem_map, Function.comp_apply, readline_estimates] at hy
      obtain ⟨e, _, rfl⟩ := hy
      simp
  obtain ⟨v, hv⟩ : ∃ v : (Nat → Nat) → List F64, v = fun e => [ofNat 0, ofNat (e 0)] := ⟨_, rfl⟩
  have hvals : (F.map g).mapM lineValues = .ok (F.map v) := by
    rw [List.mapM_map, Exp.mapM_ok (g := v)]
    intro e _; rw [hg, hv]; exact lineValues_eq 0 (e 0)
  have hne : F.map g ≠ [] := by simpa using hF
  have herr : (F.map v).mapM relativeError = .error .ZeroDivisionError := by
    cases F with
    | nil => exact absurd rfl hF
    | cons e F =>
      rw [List.map_cons]
      refine mapM_error (A := []) ?_ (by simp)
      rw [hv]
      simp only [relativeError, item, List.getElem?_cons_succ, List.getElem?_cons_zero, bind, Except.bind]
      rw [if_pos]
      left
      rw [ofNat_eq (by norm_num)]
      norm_num
  rw [calculateStatistics, statisticsLoop, hlines, if_neg hne, hvals]
  simp only [bind, Except.bind, herr]

end

/-- The default maximum of the script, `10^9`. -/
example : ∃ (l : List ℤ) (z : ℤ), generateCardinalities 3031 (10 ^ 9) = some (.ok l) ∧
    l.Pairwise (· < ·) ∧ l.head? = some 1 ∧ l.getLast? = some z ∧ 10 ^ 9 ≤ z ∧ (z : ℚ) < 1.0071 * 10 ^ 9 := by
  obtain ⟨K, l, z, h1, h2, h3, h4, h5, -, h6, h7, -⟩ := C81_cardinalities (M := 10 ^ 9)
    (le_trans (b := 2 ^ 30) (by norm_num) (pow_le_pow_right₀ (by norm_num) (by norm_num)))
  have hK := h2 30 (by norm_num)
  refine ⟨l, z, ?_, h3, h4, h5, h6, ?_⟩
  · rw [h1, if_pos (by omega)]
  · have := h7 (by norm_num)
    push_cast at this
    exact this

/-- Two files with two lines each. -/
example : (calculateStatistics (fun l => l.headD .nan) (fun l => l.getLastD .nan) (fun _ => .nan)
    ["1 1\n2 3\n".toList, "1 2\n2 2\n".toList]) =
      .ok ([1, 2], [.fin 0, .fin (1 / 2)], [.fin 1, .fin 0], [.nan, .nan]) := by
  decide +kernel

/-- Two runs of the second experiment at precision 14, with counters in place of random numbers. -/
example (mean median std : List F64 → F64) (c : Serde.Codec U64) :
    ∃ (ts : List Nat) (fuel : Nat) (files : List Text),
      generateCardinalities fuel 1000 = some (.ok (ts.map fun t : Nat => (t : ℤ))) ∧
      [fun j => BitVec.ofNat 64 j, fun j => BitVec.ofNat 64 (3 * j)].mapM (fun rng =>
        runPlusAt Cfg.debug64 ln c ords rng (toString 14).toList
          (cardinalitiesFile (ts.map fun t : Nat => (t : ℤ)))) = .ok files ∧
      (calculateStatistics mean median std files).isOk := by
  obtain ⟨ts, fuel, files, x, h1, h2, h3, -⟩ := C81_plus_cardinalities (cfg := Cfg.debug64) (p := 14) (ln := ln)
    (ords := ords) mean median std rfl c (by norm_num) (by norm_num) (M := 1000) (by norm_num)
    [fun j => BitVec.ofNat 64 j, fun j => BitVec.ofNat 64 (3 * j)] (by simp)
  exact ⟨ts, fuel, files, h1, h2, by rw [h3]; rfl⟩

end HLL
