import Verif.Props.Programs

/-!
# C58: small sets are counted exactly

Rounded down, `count` is exactly the number of distinct values received as long as no two of their
hashes collide, and collisions are unlikely for small sets.
-/

namespace HLL
open Spec F64

theorem gapsSize_le {k : Nat} (hk : 1 ≤ k) : ∀ (L : List Nat) (prev : Nat), (∀ c ∈ L, c < 128 ^ k) →
    gapsSize prev L ≤ k * L.length
  | [], _, _ => by simp [gapsSize]
  | c :: cs, prev, h => by
    have h1 := varLen_le hk (lt_of_le_of_lt (Nat.sub_le c prev) (h c (by simp)))
    have h2 := gapsSize_le hk cs c fun x hx => h x (by simp [hx])
    rw [gapsSize, List.length_cons, Nat.mul_add]
    omega

/-- Codes take at most five bytes each. -/
theorem fits_of_card {p : Nat} {S : Finset Nat} (hS : ∀ x ∈ S, x < 2 ^ 64)
    (h : 5 * (codes p S).card ≤ capacity p) : fitsSparse p S := by
  refine le_trans (gapsSize_le (k := 5) (by norm_num) _ 0 fun c hc => ?_)
    (by rwa [Finset.length_sort])
  rw [Finset.mem_sort, codes, Finset.mem_image] at hc
  obtain ⟨x, hx, rfl⟩ := hc
  exact (code_lt p x (hS x hx)).trans (by norm_num)

/-- A sparse sketch with few codes counts them exactly. -/
theorem plus_small {ln : F64 → F64} (hln : LnSpec ln) (b : Nat → F64 → F64) {p : Nat} {S : Finset Nat}
    (hS : ∀ x ∈ S, x < 2 ^ 64) (h : 5 * (codes p S).card ≤ capacity p)
    (h5 : (codes p S).card ≤ 5000) :
    ∃ y : ℚ, plusCount ln b p S = fin y ∧ ⌊y⌋ = (codes p S).card := by
  rw [plusCount, if_pos (fits_of_card hS h)]
  rcases Nat.eq_zero_or_pos (codes p S).card with h0 | h0
  · obtain ⟨y, h1, h2, _⟩ := linear_approx hln (m := 2 ^ 24) (V := 2 ^ 24) (by norm_num) le_rfl le_rfl
    rw [h0]
    exact ⟨y, h1, by rw [h2 rfl]; rfl⟩
  · obtain ⟨y, k1, k2, _, k4⟩ := sparse_bounds hln h0 (by omega)
    refine ⟨y, k1, ?_⟩
    rw [Int.floor_eq_iff]
    exact ⟨by exact_mod_cast k2, by exact_mod_cast k4 h5⟩

/-- `HyperLogLogPF` counts few occupied registers exactly. -/
theorem pf_small {ln : F64 → F64} (hln : LnSpec ln) {p k : Nat} (hp1 : 4 ≤ p) (hp2 : p ≤ 16)
    {S : Finset Nat} (hk : zeros 32 p S + k = 2 ^ p) (h : k * (k + 1) < 2 ^ p) :
    ∃ y : ℚ, pfCount ln p S = fin y ∧ ⌊y⌋ = k := by
  have hm : 16 ≤ 2 ^ p := by
    calc 16 = 2 ^ 4 := by norm_num
      _ ≤ 2 ^ p := Nat.pow_le_pow_right (by norm_num) hp1
  have hm2 : 2 ^ p ≤ 65536 := by
    calc 2 ^ p ≤ 2 ^ 16 := Nat.pow_le_pow_right (by norm_num) hp2
      _ = 65536 := by norm_num
  have hk4 : 4 * k ≤ 2 ^ p := by
    rcases Nat.lt_or_ge k 4 with h | h
    · omega
    · nlinarith
  have hZ : 3 / 10 * (2 : ℚ) ^ p ≤ zeros 32 p S := by
    have : 3 * 2 ^ p ≤ 10 * zeros 32 p S := by omega
    have : (3 : ℚ) * 2 ^ p ≤ 10 * zeros 32 p S := by exact_mod_cast this
    linarith
  have hpos : 0 < zeros 32 p S := by omega
  have h4 := pf_raw_small hp1 hp2 S hZ
  have hval : pfCount ln p S = linear ln (2 ^ p) (zeros 32 p S) := by
    rcases pfRegime_cases ln hp1 hp2 S with ⟨_, _, _, h⟩ | ⟨h, _⟩
    · rw [h, count_zero_regs]
    · exact absurd ⟨h4, by rw [count_zero_regs]; omega⟩ h
  rw [hval]
  obtain ⟨y, h1, h2, h3⟩ := linear_approx hln (m := 2 ^ p) (V := zeros 32 p S) hpos (by omega)
    (hm2.trans (by norm_num))
  refine ⟨y, h1, ?_⟩
  rcases Nat.eq_zero_or_pos k with rfl | hk0
  · rw [h2 (by omega)]; rfl
  have hk1 : (1 : ℝ) ≤ k := by exact_mod_cast hk0
  have hz : (zeros 32 p S : ℝ) = 2 ^ p - k := by
    have : (zeros 32 p S : ℝ) + k = 2 ^ p := by exact_mod_cast hk
    linarith
  have hzpos : (0 : ℝ) < 2 ^ p - k := by rw [← hz]; exact_mod_cast hpos
  have hq : (k : ℝ) * (k + 1) + 1 ≤ 2 ^ p := by exact_mod_cast h
  have hm' : (16 : ℝ) ≤ 2 ^ p := by exact_mod_cast hm
  have hm2' : (2 : ℝ) ^ p ≤ 65536 := by exact_mod_cast hm2
  push_cast at h3
  rw [hz] at h3
  generalize (2 : ℝ) ^ p = m at *
  -- upper bound of the exact value
  have hu : m * Real.log (m / (m - k)) ≤ k + 1 - 1 / m := by
    have e : Real.log (m / (m - k)) ≤ m / (m - k) - 1 :=
      Real.log_le_sub_one_of_pos (by positivity)
    have e2 : m * (m / (m - k) - 1) ≤ k + 1 - 1 / m := by
      have : m * (m / (m - k) - 1) = k + k ^ 2 / (m - k) := by field_simp; ring
      rw [this]
      have e3 : (k : ℝ) ^ 2 / (m - k) ≤ 1 - 1 / m := by
        rw [div_le_iff₀ hzpos]
        have : 1 / m * (m - k) ≤ 1 := by
          rw [one_div, inv_mul_le_iff₀ (by linarith)]; linarith
        nlinarith
      linarith
    exact (mul_le_mul_of_nonneg_left e (by linarith)).trans e2
  -- lower bound of the exact value
  have hl : k + 1 / (2 * m) ≤ m * Real.log (m / (m - k)) := by
    have hx : (0 : ℝ) ≤ k / m := by positivity
    have e : m / (m - k) = (1 - k / m)⁻¹ := by
      have : (1 : ℝ) - k / m = (m - k) / m := by field_simp
      rw [this, inv_div]
    have e1 : k / m + (k / m) ^ 2 / 2 ≤ Real.log (m / (m - k)) := by
      rw [e, Real.log_inv]
      have hx1 : (k : ℝ) / m < 1 := by rw [div_lt_one (by linarith)]; linarith
      have hs := Real.hasSum_pow_div_log_of_abs_lt_one (x := k / m) (by rwa [abs_of_nonneg hx])
      have := sum_le_hasSum (Finset.range 2) (fun i _ => by positivity) hs
      simp [Finset.sum_range_succ] at this
      norm_num at this ⊢
      linarith
    calc (k : ℝ) + 1 / (2 * m) ≤ m * (k / m + (k / m) ^ 2 / 2) := by
          have : m * (k / m + (k / m) ^ 2 / 2) = k + k ^ 2 / (2 * m) := by field_simp
          rw [this]
          gcongr
          nlinarith
      _ ≤ _ := mul_le_mul_of_nonneg_left e1 (by linarith)
  have herr : m / 2 ^ 51 + m * Real.log (m / (m - k)) / 2 ^ 39 < 1 / (2 * m) := by
    have : (k : ℝ) ≤ 256 := by nlinarith
    have e1 : 1 / (2 * (65536 : ℝ)) ≤ 1 / (2 * m) := by gcongr
    have e3 : 0 < 1 / m := by positivity
    have e2 : m * Real.log (m / (m - k)) ≤ 257 := by linarith
    norm_num at e1 ⊢
    linarith
  have e4 : 1 / (2 * m) ≤ 1 / m := by gcongr; linarith
  have := abs_le.1 h3
  rw [Int.floor_eq_iff]
  constructor
  · have : (k : ℝ) ≤ y := by linarith
    exact_mod_cast this
  · have : (y : ℝ) < k + 1 := by linarith
    exact_mod_cast this

/-- The empty registers are at least those not hit by any value. -/
theorem zeros_ge {w p n : Nat} (h : Fin n → Fin (2 ^ 64)) :
    2 ^ p ≤ zeros w p (hashSet w h) + n := by
  classical
  have h1 : (Finset.range (2 ^ p)) ⊆
      ((Finset.range (2 ^ p)).filter fun j => reg w p (hashSet w h) j = 0) ∪
        Finset.univ.image fun i => bucket w p ((h i : Nat) % 2 ^ w) := by
    intro j hj
    rw [Finset.mem_union, Finset.mem_filter, Finset.mem_image]
    by_cases h0 : reg w p (hashSet w h) j = 0
    · exact Or.inl ⟨hj, h0⟩
    · right
      rw [reg_eq_zero_iff, hashSet] at h0
      push Not at h0
      obtain ⟨x, hx, hxj⟩ := h0
      obtain ⟨i, _, rfl⟩ := Finset.mem_image.1 hx
      exact ⟨i, Finset.mem_univ _, hxj⟩
  have h2 := (Finset.card_le_card h1).trans (Finset.card_union_le _ _)
  rw [Finset.card_range] at h2
  refine h2.trans (Nat.add_le_add_left ?_ _)
  exact Finset.card_image_le.trans (by rw [Finset.card_univ, Fintype.card_fin])

/-- Two of `n` values hit the same register with probability at most `n²/(2m)`. -/
theorem fraction_collide {w p : Nat} (hp : p ≤ w) (hw : w ≤ 64) (n : Nat) :
    fraction (fun h : Fin n → Fin (2 ^ 64) => zeros w p (hashSet w h) + n ≠ 2 ^ p) ≤
      n ^ 2 / (2 * 2 ^ p) := by
  classical
  have h1 : ((Finset.univ.filter fun h : Fin n → Fin (2 ^ 64) =>
      zeros w p (hashSet w h) + n ≠ 2 ^ p).card : ℝ) ≤
      ∑ h : Fin n → Fin (2 ^ 64), ((zeros w p (hashSet w h) : ℝ) + n - 2 ^ p) := by
    rw [Finset.card_filter, Nat.cast_sum]
    refine Finset.sum_le_sum fun h _ => ?_
    have h2 := zeros_ge (w := w) (p := p) h
    split
    · next h3 =>
      have : 2 ^ p + 1 ≤ zeros w p (hashSet w h) + n := by omega
      have : (2 : ℝ) ^ p + 1 ≤ zeros w p (hashSet w h) + n := by exact_mod_cast this
      push_cast
      linarith
    · have : (2 : ℝ) ^ p ≤ zeros w p (hashSet w h) + n := by exact_mod_cast h2
      push_cast
      linarith
  have hN : (0 : ℝ) < Fintype.card (Fin n → Fin (2 ^ 64)) := by exact_mod_cast Fintype.card_pos
  have h3 := average_zeros hp hw n
  have hm : (1 : ℝ) ≤ 2 ^ p := one_le_pow₀ (by norm_num)
  have h4 := pow_le_quad (x := 1 / 2 ^ p) (by positivity) (by rw [div_le_one (by positivity)]; exact hm) n
  calc _ ≤ (∑ h : Fin n → Fin (2 ^ 64), ((zeros w p (hashSet w h) : ℝ) + n - 2 ^ p)) /
        Fintype.card (Fin n → Fin (2 ^ 64)) := by
        unfold fraction
        refine div_le_div_of_nonneg_right (le_trans (le_of_eq ?_) h1) hN.le
        congr!
    _ = 2 ^ p * (1 - 1 / 2 ^ p) ^ n + n - 2 ^ p := by
        rw [← h3, Finset.sum_sub_distrib, Finset.sum_add_distrib, Finset.sum_const, Finset.sum_const,
          Finset.card_univ, nsmul_eq_mul, nsmul_eq_mul]
        field_simp
    _ ≤ 2 ^ p * (1 - n * (1 / 2 ^ p) + (n * (1 / 2 ^ p)) ^ 2 / 2) + n - 2 ^ p := by gcongr
    _ = n ^ 2 / (2 * 2 ^ p) := by field_simp; ring

variable {N : Nat} {cfg : Cfg} {ln : F64 → F64} {ords : Nat → IterOrder × IterOrder} {p i : Nat}
  {ops : List (Op (Fin N))} {V : Finset (Fin N)}

/-- **C58** for `HyperLogLogPlus`: run any program, with random hashes.  If sketch `i` of precision
`p` received exactly `n` values, `n ≤ 5000` and `25 n ≤ 4 · 2^p`, then `count`, rounded down, is
exactly `n`, except with probability at most `n(n-1)/2^26`. -/
theorem C58_plus_small_exact (hln : LnSpec ln) (c : Serde.Codec (Fin N))
    (hs : ∀ h, Supported cfg c (ops.map (withHashes h)))
    (hV : (received 18 ops)[i]? = some (p, V)) (hn : V.card ≤ 5000) (hp : 25 * V.card ≤ 4 * 2 ^ p) :
    fraction (fun h : Fin N → Fin (2 ^ 64) => ¬ ∃ y : ℚ,
        later (Plus.api cfg ln c) ords (ops.map (withHashes h)) [.count i] = .ok [.count (fin y)] ∧
        ⌊y⌋ = V.card) ≤ V.card * (V.card - 1) / 2 ^ 26 := by
  let P : Finset Nat → Prop := fun S => ¬ ∃ y : ℚ, plusCount ln (Plus.biasOf cfg.search) p S = fin y ∧
    ⌊y⌋ = V.card
  have e : fraction (fun h : Fin N → Fin (2 ^ 64) => P (V.image fun v => (h v : Nat) % 2 ^ 64)) ≤
      V.card * (V.card - 1) / 2 ^ 26 := by
    rw [fraction_restrict]
    refine le_trans (fraction_mono fun g hg => ?_)
      ((fraction_codes p V.card zero_lt_one).trans (by rw [mul_one]))
    by_contra hcon
    have h1 := card_codes_le p g
    have h2 : (codes p (hashSet 64 g)).card = V.card := by
      have : ¬ (codes p (hashSet 64 g)).card + 1 ≤ V.card := by exact_mod_cast hcon
      omega
    obtain ⟨y, h3, h4⟩ := plus_small hln (Plus.biasOf cfg.search) (p := p) (hashSet_lt g)
      (by rw [h2, capacity]; omega) (by omega)
    exact hg ⟨y, h3, by rw [h4, h2]⟩
  refine le_trans (fraction_mono fun h hh => ?_) e
  rintro ⟨y, e1, e2⟩
  refine hh ⟨y, ?_, e2⟩
  have hc : (contents 64 18 (ops.map (withHashes h)))[i]? = some (meaning 64 h (p, V)) := by
    rw [contents_meaning, List.getElem?_map, hV]; rfl
  rw [plus_count_val (hs h) hc]
  simp only [meaning]
  rw [e1]

/-- **C58** for `HyperLogLogPF`: if sketch `i` of precision `p` received exactly `n` values and
`n (n + 1) < 2^p`, then `count`, rounded down, is exactly `n`, except with probability at most
`n²/(2 · 2^p)`. -/
theorem C58_pf_small_exact (hln : LnSpec ln) (c : Serde.Codec (Fin N))
    (hs : ∀ h, Supported cfg c (ops.map (withHashes h)))
    (hV : (received 16 ops)[i]? = some (p, V)) (hn : V.card * (V.card + 1) < 2 ^ p) :
    fraction (fun h : Fin N → Fin (2 ^ 64) => ¬ ∃ y : ℚ,
        later (PF.api cfg ln c) ords (ops.map (withHashes h)) [.count i] = .ok [.count (fin y)] ∧
        ⌊y⌋ = V.card) ≤ V.card ^ 2 / (2 * 2 ^ p) := by
  have hp2 : p ≤ 16 := received_le hV
  have hp1 : 4 ≤ p := received_ge hV
  let P : Finset Nat → Prop := fun S => ¬ ∃ y : ℚ, pfCount ln p S = fin y ∧ ⌊y⌋ = V.card
  have e : fraction (fun h : Fin N → Fin (2 ^ 64) => P (V.image fun v => (h v : Nat) % 2 ^ 32)) ≤
      V.card ^ 2 / (2 * 2 ^ p) := by
    rw [fraction_restrict]
    refine le_trans (fraction_mono fun g hg => ?_)
      (fraction_collide (w := 32) (p := p) (by omega) (by omega) V.card)
    intro hcon
    exact hg (pf_small hln hp1 hp2 hcon hn)
  refine le_trans (fraction_mono fun h hh => ?_) e
  rintro ⟨y, e1, e2⟩
  refine hh ⟨y, ?_, e2⟩
  have hc : (contents 32 16 (ops.map (withHashes h)))[i]? = some (meaning 32 h (p, V)) := by
    rw [contents_meaning, List.getElem?_map, hV]; rfl
  rw [pf_count_val (hs h) hc]
  simp only [meaning]
  rw [e1]

/-- An instance: 600 distinct values at two sites with precision 14 are counted exactly after the
merge, with probability at least 99.4 %. -/
example (hln : LnSpec ln) : fraction (fun h : Fin (3 * 200) → Fin (2 ^ 64) => ¬ ∃ y : ℚ,
    later (Plus.api Cfg.debug64 ln (noCodec _)) ords ((twoSites 200).map (withHashes h)) [.count 0] =
      .ok [.count (fin y)] ∧ ⌊y⌋ = (600 : ℕ)) ≤ 0.006 := by
  have h := C58_plus_small_exact (ords := ords) (cfg := Cfg.debug64) (N := 3 * 200)
    (ops := twoSites 200) hln (noCodec _) (fun h => supported64 rfl _ (twoSites_reload 200 h))
    (received_twoSites 200 (by norm_num)) (by rw [Finset.card_univ, Fintype.card_fin]; norm_num)
    (by rw [Finset.card_univ, Fintype.card_fin]; norm_num)
  rw [Finset.card_univ, Fintype.card_fin] at h
  refine le_trans (fraction_mono fun x hx => ?_) (h.trans (by norm_num))
  rintro ⟨y, e1, e2⟩
  exact hx ⟨y, e1, e2⟩

end HLL
