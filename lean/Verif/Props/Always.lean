import Verif.Proofs.Chains
import Verif.Props.StdError

/-!
# C70: `count` is accurate at all times

C57 and C62 bound the probability that one call of `count` is off.  Here a sketch is observed all the
time while it grows, as in the first experiment of `evaluation/README.md`, where the cardinality is
estimated after every insertion: except with a small probability that does not depend on the length
of the program, `count` is accurate after *every* call.  The calls need not be insertions into this
sketch, and values may be repeated.
-/

namespace HLL
open Spec F64 Exps

variable {cfg : Cfg} {ln : F64 → F64} {ords : Nat → IterOrder × IterOrder} {p w : Nat} {δ : ℝ}
variable {N i : Nat} {ops : List (Op (Fin N))} {V : Finset (Fin N)}

/-- The raw estimate of a sketch between two sketches that are nearly as large and have raw estimates
within `ε` of the truth. -/
theorem raw_between {a v b x r y ε : ℝ} (hε0 : 0 ≤ ε) (hε : ε ≤ 0.107) (hav : a ≤ v)
    (hvb : v ≤ b) (hba : 128 * b ≤ 129 * a) (hx : |x - a| ≤ ε * a) (hy : |y - b| ≤ ε * b) (hxr : x ≤ r)
    (hry : r ≤ y) (ha0 : 0 ≤ a) : |r - v| ≤ (ε + 0.00866) * v ∧ 0.89 * a ≤ r := by
  obtain ⟨x1, _⟩ := abs_le.1 hx
  obtain ⟨_, y2⟩ := abs_le.1 hy
  have e1 : ε * a ≤ 0.107 * a := by gcongr
  have e2 : ε * b ≤ ε * (129 / 128 * v) := by
    apply mul_le_mul_of_nonneg_left _ hε0; linarith
  have e3 : ε * a ≤ ε * v := by gcongr
  have e4 : ε * v ≤ 0.107 * v := by apply mul_le_mul_of_nonneg_right hε; linarith
  refine ⟨abs_le.2 ⟨?_, ?_⟩, ?_⟩
  · norm_num at *; linarith
  · norm_num at *; linarith
  · norm_num at *; linarith

theorem eps_small (h1 : 8 ≤ p) (hδ : δ ≤ 1 / 10) : δ + 1.1 / (2 : ℝ) ^ p + 0.001 ≤ 0.107 := by
  have hw : 1.1 / (2 : ℝ) ^ p ≤ 1.1 / 256 := by have := m_ge h1; gcongr
  generalize 1.1 / (2 : ℝ) ^ p = ω at *
  norm_num at *
  linarith

theorem always_err (hδ0 : 0 < δ) {n : ℝ} (hn : 0 ≤ n) :
    (δ + 1.1 / 2 ^ p + 0.001 + 0.00866) * n ≤ (1.05 * δ + 0.01 + 4 / 2 ^ p) * (n + 1.6 * 2 ^ p) := by
  have hw0 : 1.1 / (2 : ℝ) ^ p ≤ 4 / 2 ^ p := by gcongr; norm_num
  refine mul_le_mul ?_ ?_ hn (by positivity)
  · norm_num at hw0 ⊢
    linarith
  · have : (0 : ℝ) ≤ 1.6 * 2 ^ p := by positivity
    linarith

theorem low_err {n : ℝ} (hn : 0 ≤ n) :
    (1.05 * δ + 0.005 + 4 / 2 ^ p) * (n + 1.6 * 2 ^ p) ≤ (1.05 * δ + 0.01 + 4 / 2 ^ p) * (n + 1.6 * 2 ^ p) := by
  refine mul_le_mul_of_nonneg_right ?_ (by positivity)
  norm_num

theorem image_lt (h : Fin N → Fin (2 ^ 64)) (V : Finset (Fin N)) :
    ∀ x ∈ V.image (fun v => (h v : Nat) % 2 ^ 64), x < 2 ^ 64 := by
  intro x hx
  obtain ⟨v, _, rfl⟩ := Finset.mem_image.1 hx
  exact Nat.mod_lt _ (by positivity)

theorem six_ge (h1 : 8 ≤ p) : 2 ^ 10 ≤ 6 * 2 ^ p := by
  have : 2 ^ 8 ≤ 2 ^ p := Nat.pow_le_pow_right (by norm_num) h1
  omega

theorem plus_always (hln : LnSpec ln) (v : Search) (h1 : 8 ≤ p) (h2 : p ≤ 18) (hδ0 : 0 < δ)
    (hδ : δ ≤ 1 / 10) {C : Finset (Finset (Fin N))} (hC : ∀ A ∈ C, ∀ B ∈ C, A ⊆ B ∨ B ⊆ A)
    (hn : ∀ A ∈ C, A.card ≤ 2 ^ 59) :
    fraction (fun h : Fin N → Fin (2 ^ 64) => ∃ V ∈ C, ¬ ∃ y : ℚ,
        plusCount ln (Plus.biasOf v) p (V.image fun v => (h v : Nat) % 2 ^ 64) = fin y ∧
        |(y : ℝ) - V.card| ≤ (1.05 * δ + 0.01 + 4 / 2 ^ p) * (V.card + 1.6 * 2 ^ p)) ≤
      (36 * 2 ^ p + 25606) * Real.exp (-(2 ^ p * δ ^ 2 / 4)) := by
  have hx := Real.exp_pos (-(2 ^ p * δ ^ 2 / 4))
  refine (chain_union hC (L := 6 * 2 ^ p) (l := 60) (six_ge h1)
    (fun A hA => lt_of_le_of_lt (hn A hA) (by norm_num)) (by norm_num)
    (a := 6 * Real.exp (-(2 ^ p * δ ^ 2 / 4))) (b := 2 * Real.exp (-(2 ^ p * δ ^ 2 / 4)))
    (raw := fun V h => ¬ |(rawQ p (hsum 0 (regs 64 p (V.image fun v => (h v : Nat) % 2 ^ 64))) : ℝ) - V.card| ≤
      (δ + 1.1 / 2 ^ p + 0.001) * V.card) (by positivity) (by positivity) ?_ ?_ ?_).trans ?_
  · intro V hV _
    have key := plus_tail hln v h1 h2 hδ0 hδ (hn V hV)
    rw [← fraction_restrict V 64 fun S => ¬ ∃ y : ℚ, plusCount ln (Plus.biasOf v) p S = fin y ∧
      |(y : ℝ) - V.card| ≤ (1.05 * δ + 0.005 + 4 / 2 ^ p) * (V.card + 1.6 * 2 ^ p)] at key
    refine le_trans (fraction_mono fun h hh => ?_) key
    rintro ⟨y, e1, e2⟩
    exact hh ⟨y, e1, e2.trans (low_err (Nat.cast_nonneg _))⟩
  · intro V hV hV6
    have key := raw_tail_high (w := 64) h1 h2 (by omega) le_rfl hV6 (by have := hn V hV; omega) hδ0 hδ
    rwa [← fraction_restrict V 64 fun S => ¬ |(rawQ p (hsum 0 (regs 64 p S)) : ℝ) - V.card| ≤
      (δ + 1.1 / 2 ^ p + 0.001) * V.card] at key
  · intro h A hA V B hB hA6 hAV hVB hAB hrA hrB
    rw [not_not] at hrA hrB ⊢
    have m1 := regs_raw_mono (w := 64) (p := p) (by omega) h2 (by omega)
      (Finset.image_subset_image (f := fun v : Fin N => (h v : Nat) % 2 ^ 64) hAV)
    have m2 := regs_raw_mono (w := 64) (p := p) (by omega) h2 (by omega)
      (Finset.image_subset_image (f := fun v : Fin N => (h v : Nat) % 2 ^ 64) hVB)
    have hA6' : 6 * (2 : ℝ) ^ p < A.card := by exact_mod_cast hA6
    obtain ⟨k1, k2⟩ := raw_between (ε := δ + 1.1 / 2 ^ p + 0.001) (by positivity) (eps_small h1 hδ)
      (Nat.cast_le.2 (Finset.card_le_card hAV)) (Nat.cast_le.2 (Finset.card_le_card hVB))
      (by exact_mod_cast hAB) hrA hrB (Rat.cast_le.2 m1) (Rat.cast_le.2 m2) (Nat.cast_nonneg _)
    refine ⟨_, plusCount_raw hln v (by omega) h2 (image_lt h V) ?_,
      k1.trans (always_err hδ0 (Nat.cast_nonneg _))⟩
    have h6 : ((5 * (2 : ℚ) ^ p : ℚ) : ℝ) <
        (rawQ p (hsum 0 (regs 64 p (V.image fun v => (h v : Nat) % 2 ^ 64))) : ℝ) := by
      push_cast
      have : (0 : ℝ) < 2 ^ p := by positivity
      norm_num at k2
      linarith
    exact_mod_cast h6
  · push_cast
    linarith

theorem pf_always (hln : LnSpec ln) (h1 : 8 ≤ p) (h2 : p ≤ 16) (hδ0 : 0 < δ)
    (hδ : δ ≤ 1 / 10) {C : Finset (Finset (Fin N))} (hC : ∀ A ∈ C, ∀ B ∈ C, A ⊆ B ∨ B ⊆ A)
    (hn : ∀ A ∈ C, (1 + (δ + 1.1 / 2 ^ p + 0.001)) * A.card ≤ 2 ^ 32 / 30) :
    fraction (fun h : Fin N → Fin (2 ^ 64) => ∃ V ∈ C, ¬ ∃ y : ℚ,
        pfCount ln p (V.image fun v => (h v : Nat) % 2 ^ 32) = fin y ∧
        |(y : ℝ) - V.card| ≤ (1.05 * δ + 0.01 + 4 / 2 ^ p) * (V.card + 1.6 * 2 ^ p) +
          (if V.card ≤ 2 * 2 ^ p then 0 else 0.11 * 2 ^ p)) ≤
      (24 * 2 ^ p + 9220) * Real.exp (-(2 ^ p * δ ^ 2 / 6)) := by
  have hx := Real.exp_pos (-(2 ^ p * δ ^ 2 / 6))
  have hx4 : Real.exp (-(2 ^ p * δ ^ 2 / 4)) ≤ Real.exp (-(2 ^ p * δ ^ 2 / 6)) := by
    have : 0 ≤ 2 ^ p * δ ^ 2 := by positivity
    rw [Real.exp_le_exp]; linarith
  have hε : 0 ≤ δ + 1.1 / 2 ^ p + 0.001 := by positivity
  have hcard : ∀ A ∈ C, 30 * A.card ≤ 2 ^ 32 := by
    intro A hA
    have h3 : 0 ≤ (δ + 1.1 / 2 ^ p + 0.001) * A.card := by positivity
    have h4 := hn A hA
    have : 30 * (A.card : ℝ) ≤ 2 ^ 32 := by linarith
    exact_mod_cast this
  refine (chain_union hC (L := 6 * 2 ^ p) (l := 28) (six_ge h1)
    (fun A hA => by have := hcard A hA; omega) (by norm_num)
    (a := 4 * Real.exp (-(2 ^ p * δ ^ 2 / 6))) (b := 2 * Real.exp (-(2 ^ p * δ ^ 2 / 6)))
    (raw := fun V h => ¬ |(rawQ p (hsum 0 (regs 32 p (V.image fun v => (h v : Nat) % 2 ^ 32))) : ℝ) - V.card| ≤
      (δ + 1.1 / 2 ^ p + 0.001) * V.card) (by positivity) (by positivity) ?_ ?_ ?_).trans ?_
  · intro V hV _
    have key := pf_tail hln h1 h2 hδ0 hδ (hn V hV)
    rw [← fraction_restrict V 32 fun S => ¬ ∃ y : ℚ, pfCount ln p S = fin y ∧
      |(y : ℝ) - V.card| ≤ (1.05 * δ + 0.005 + 4 / 2 ^ p) * (V.card + 1.6 * 2 ^ p) +
          (if V.card ≤ 2 * 2 ^ p then 0 else 0.11 * 2 ^ p)] at key
    refine le_trans (fraction_mono fun h hh => ?_) key
    rintro ⟨y, e1, e2⟩
    exact hh ⟨y, e1, e2.trans (add_le_add (low_err (Nat.cast_nonneg _)) le_rfl)⟩
  · intro V hV hV6
    have key := (raw_tail_high (w := 32) h1 (by omega) (by omega) (by omega) hV6
      (by have := hcard V hV; omega) hδ0 hδ).trans (mul_le_mul_of_nonneg_left hx4 (by norm_num))
    rwa [← fraction_restrict V 32 fun S => ¬ |(rawQ p (hsum 0 (regs 32 p S)) : ℝ) - V.card| ≤
      (δ + 1.1 / 2 ^ p + 0.001) * V.card] at key
  · intro h A hA V B hB hA6 hAV hVB hAB hrA hrB
    rw [not_not] at hrA hrB ⊢
    have m1 := regs_raw_mono (w := 32) (p := p) (by omega) (by omega) (by omega)
      (Finset.image_subset_image (f := fun v : Fin N => (h v : Nat) % 2 ^ 32) hAV)
    have m2 := regs_raw_mono (w := 32) (p := p) (by omega) (by omega) (by omega)
      (Finset.image_subset_image (f := fun v : Fin N => (h v : Nat) % 2 ^ 32) hVB)
    have hA6' : 6 * (2 : ℝ) ^ p < A.card := by exact_mod_cast hA6
    obtain ⟨k1, k2⟩ := raw_between (ε := δ + 1.1 / 2 ^ p + 0.001) hε (eps_small h1 hδ)
      (Nat.cast_le.2 (Finset.card_le_card hAV)) (Nat.cast_le.2 (Finset.card_le_card hVB))
      (by exact_mod_cast hAB) hrA hrB (Rat.cast_le.2 m1) (Rat.cast_le.2 m2) (Nat.cast_nonneg _)
    refine ⟨_, pfCount_raw (by omega) h2 ?_ ?_,
      k1.trans ((always_err hδ0 (Nat.cast_nonneg _)).trans (le_add_of_nonneg_right ?_))⟩
    · have h6 : ((5 / 2 * (2 : ℚ) ^ p : ℚ) : ℝ) <
          (rawQ p (hsum 0 (regs 32 p (V.image fun v => (h v : Nat) % 2 ^ 32))) : ℝ) := by
        push_cast
        have : (0 : ℝ) < 2 ^ p := by positivity
        norm_num at k2
        linarith
      exact_mod_cast h6
    · have h5 : (rawQ p (hsum 0 (regs 32 p (V.image fun v => (h v : Nat) % 2 ^ 32))) : ℝ) ≤ 2 ^ 32 / 30 := by
        have h3 := hn B hB
        have h4 := (abs_le.1 hrB).2
        refine (Rat.cast_le.2 m2).trans ?_
        linarith
      have h6 : (rawQ p (hsum 0 (regs 32 p (V.image fun v => (h v : Nat) % 2 ^ 32))) : ℝ) ≤
          ((2 ^ 32 / 30 : ℚ) : ℝ) := by
        push_cast; exact h5
      exact_mod_cast h6
    · split <;> positivity
  · push_cast
    linarith

theorem supported_take {c : Serde.Codec (Fin N)} {h : Fin N → Fin (2 ^ 64)}
    (hs : Supported cfg c (ops.map (withHashes h))) (k : Nat) :
    Supported cfg c ((ops.take k).map (withHashes h)) := by
  have e : (ops.take k).map (withHashes h) = (ops.map (withHashes h)).take k := List.map_take
  rw [e]
  exact hs.of_subset (fun p b hb => List.mem_of_mem_take hb) fun i hi => ⟨i, List.mem_of_mem_take hi⟩

/-- **C70** for `HyperLogLogPlus`: run any program, with random hashes.  The event is that after some
number `k` of calls sketch `i`, of precision `p ≥ 8`, has received the values `V`, `n = |V| ≤ 2^59`, and
`count` on it would not return a number within `(1.05 δ + 0.01 + 4/m) (n + 1.6 m)` of `n`.  The
probability of this is at most `(36 m + 25606) exp(-m δ²/4)`, however long the program is. -/
theorem C70_plus_at_all_times (hln : LnSpec ln) (c : Serde.Codec (Fin N))
    (hs : ∀ h, Supported cfg c (ops.map (withHashes h))) (h1 : 8 ≤ p) (hδ0 : 0 < δ) (hδ : δ ≤ 1 / 10) :
    fraction (fun h : Fin N → Fin (2 ^ 64) => ∃ k V,
        (received 18 (ops.take k))[i]? = some (p, V) ∧ V.card ≤ 2 ^ 59 ∧ ¬ ∃ y : ℚ,
        later (Plus.api cfg ln c) ords ((ops.take k).map (withHashes h)) [.count i] = .ok [.count (fin y)] ∧
        |(y : ℝ) - V.card| ≤ (1.05 * δ + 0.01 + 4 / 2 ^ p) * (V.card + 1.6 * 2 ^ p)) ≤
      (36 * 2 ^ p + 25606) * Real.exp (-(2 ^ p * δ ^ 2 / 4)) := by
  classical
  rcases Nat.lt_or_ge 18 p with h2 | h2
  · refine le_trans (le_of_eq ?_) (by positivity : 0 ≤ (36 * 2 ^ p + 25606) * Real.exp (-(2 ^ p * δ ^ 2 / 4)))
    rw [fraction_eq_mean]
    refine Eq.trans (congrArg mean (funext fun h => if_neg ?_)) (mean_const 0)
    rintro ⟨k, V, hV, _⟩
    have := received_le hV
    omega
  · refine le_trans (fraction_mono fun h hh => ?_)
      (plus_always hln cfg.search (C := (stages 18 ops i p).filter fun V => V.card ≤ 2 ^ 59) h1 h2 hδ0 hδ
        (fun A hA B hB => stages_chain 18 ops i p A (Finset.mem_filter.1 hA).1 B (Finset.mem_filter.1 hB).1)
        (fun A hA => (Finset.mem_filter.1 hA).2))
    obtain ⟨k, V, hV, hn, hh⟩ := hh
    refine ⟨V, Finset.mem_filter.2 ⟨mem_stages.2 ⟨k, hV⟩, hn⟩, fun ⟨y, e1, e2⟩ => hh ⟨y, ?_, e2⟩⟩
    have hc : (contents 64 18 ((ops.take k).map (withHashes h)))[i]? = some (meaning 64 h (p, V)) := by
      rw [contents_meaning, List.getElem?_map, hV]; rfl
    rw [plus_count_val (supported_take (hs h) k) hc]
    simp only [meaning]
    rw [e1]

/-- **C70** for `HyperLogLogPF`: as above, as long as `(1 + δ + 1.1/m + 0.001) n ≤ 2^32/30`, with a further
error of `0.11 m` if `n > 2 m`, and with probability at most `(24 m + 9220) exp(-m δ²/6)`. -/
theorem C70_pf_at_all_times (hln : LnSpec ln) (c : Serde.Codec (Fin N))
    (hs : ∀ h, Supported cfg c (ops.map (withHashes h))) (h1 : 8 ≤ p) (hδ0 : 0 < δ) (hδ : δ ≤ 1 / 10) :
    fraction (fun h : Fin N → Fin (2 ^ 64) => ∃ k V,
        (received 16 (ops.take k))[i]? = some (p, V) ∧
        (1 + (δ + 1.1 / 2 ^ p + 0.001)) * V.card ≤ 2 ^ 32 / 30 ∧ ¬ ∃ y : ℚ,
        later (PF.api cfg ln c) ords ((ops.take k).map (withHashes h)) [.count i] = .ok [.count (fin y)] ∧
        |(y : ℝ) - V.card| ≤ (1.05 * δ + 0.01 + 4 / 2 ^ p) * (V.card + 1.6 * 2 ^ p) +
          (if V.card ≤ 2 * 2 ^ p then 0 else 0.11 * 2 ^ p)) ≤
      (24 * 2 ^ p + 9220) * Real.exp (-(2 ^ p * δ ^ 2 / 6)) := by
  classical
  rcases Nat.lt_or_ge 16 p with h2 | h2
  · refine le_trans (le_of_eq ?_) (by positivity : 0 ≤ (24 * 2 ^ p + 9220) * Real.exp (-(2 ^ p * δ ^ 2 / 6)))
    rw [fraction_eq_mean]
    refine Eq.trans (congrArg mean (funext fun h => if_neg ?_)) (mean_const 0)
    rintro ⟨k, V, hV, _⟩
    have := received_le hV
    omega
  · refine le_trans (fraction_mono fun h hh => ?_)
      (pf_always hln (C := (stages 16 ops i p).filter fun V =>
          (1 + (δ + 1.1 / 2 ^ p + 0.001)) * (V.card : ℝ) ≤ 2 ^ 32 / 30) h1 h2 hδ0 hδ
        (fun A hA B hB => stages_chain 16 ops i p A (Finset.mem_filter.1 hA).1 B (Finset.mem_filter.1 hB).1)
        (fun A hA => (Finset.mem_filter.1 hA).2))
    obtain ⟨k, V, hV, hn, hh⟩ := hh
    refine ⟨V, Finset.mem_filter.2 ⟨mem_stages.2 ⟨k, hV⟩, hn⟩, fun ⟨y, e1, e2⟩ => hh ⟨y, ?_, e2⟩⟩
    have hc : (contents 32 16 ((ops.take k).map (withHashes h)))[i]? = some (meaning 32 h (p, V)) := by
      rw [contents_meaning, List.getElem?_map, hV]; rfl
    rw [pf_count_val (supported_take (hs h) k) hc]
    simp only [meaning]
    rw [e1]

/-- The first experiment of `evaluation/README.md`, with a stream of `N` different values. -/
def stream (N : Nat) : List (Op (Fin N)) := .new 14 (fun _ => 0) :: (List.finRange N).map (.insert .insert 0)

theorem stream_reload (N : Nat) (h : Fin N → Fin (2 ^ 64)) (i : Nat) :
    Op.reload i ∉ (stream N).map (withHashes h) := by
  simp [stream, withHashes]

/-- After `k` insertions the sketch has received `k` values. -/
theorem received_stream {N k maxP : Nat} (hM : 14 ≤ maxP) (hk : k ≤ N) :
    ∃ V, (received maxP ((stream N).take (k + 1)))[0]? = some (14, V) ∧ V.card = k := by
  refine ⟨((List.finRange N).take k).toFinset, ?_, ?_⟩
  · rw [stream, List.take_succ_cons, received, List.foldl_cons, ← List.map_take,
      receive_inserts (i := 0) maxP .insert _ _ (14, ∅) (by simp [receive, hM])]
    simp [receive, hM]
  · rw [List.toFinset_card_of_nodup ((List.nodup_finRange N).sublist (List.take_sublist _ _)),
      List.length_take, List.length_finRange, min_eq_left hk]

/-- An instance: `10^9` different values are inserted into a sketch with `2^14` registers.  After each of
the `10^9` insertions `count` is within 12 % of `n + 26215`, except with probability below `10^-11`. -/
example (hln : LnSpec ln) : fraction (fun h : Fin (10 ^ 9) → Fin (2 ^ 64) => ∃ k, k ≤ 10 ^ 9 ∧ ¬ ∃ y : ℚ,
    later (Plus.api Cfg.debug64 ln (noCodec _)) ords (((stream (10 ^ 9)).take (k + 1)).map (withHashes h))
      [.count 0] = .ok [.count (fin y)] ∧ |(y : ℝ) - k| ≤ 0.12 * (k + 26215)) ≤ 1 / 10 ^ 11 := by
  have h := C70_plus_at_all_times (ords := ords) (cfg := Cfg.debug64) (N := 10 ^ 9) (i := 0) (p := 14)
    (ops := stream (10 ^ 9)) (δ := 0.1) hln (noCodec _)
    (fun h => supported64 rfl _ (stream_reload _ h)) (by norm_num) (by norm_num) (by norm_num)
  refine le_trans (fraction_mono fun x hx => ?_) (h.trans ?_)
  · obtain ⟨k, hk, hx⟩ := hx
    obtain ⟨V, hV, hc⟩ := received_stream (maxP := 18) (by norm_num) hk
    refine ⟨k + 1, V, hV, by rw [hc]; exact hk.trans (by norm_num), ?_⟩
    rw [hc]
    rintro ⟨y, e1, e2⟩
    refine hx ⟨y, e1, e2.trans ?_⟩
    have : (0 : ℝ) ≤ k := Nat.cast_nonneg k
    norm_num
    linarith
  · have := exp_neg_le' (x := 2 ^ 14 * 0.1 ^ 2 / 4) (k := 40) (by norm_num)
    norm_num at this ⊢
    linarith

end HLL
