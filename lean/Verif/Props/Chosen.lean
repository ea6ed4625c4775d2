import Verif.Props.Worst
import Verif.Props.Regimes
import Verif.Proofs.Crowd

/-!
# C83: what chosen values can do

C60 bounds `count` for all hashes.  Here are the sets of hashes that reach the extremes: someone who knows
the hash function can insert very many values that are counted as one, or a few values that are counted as
more than `2^64`, whatever else the sketch has seen or is merged with.
-/

namespace HLL
open Spec F64

variable {I : Type} {cfg : Cfg} {ln : F64 → F64} {c : Serde.Codec I}
  {ords : Nat → IterOrder × IterOrder} {ops ops' : List (Op I)} {i j : Nat}

/-- The `2^39` hashes that begin with twenty-four zeros and a one. -/
def sameStart : Finset Nat := Finset.Ico (2 ^ 39) (2 ^ 40)

/-- The `2^(w-1-p)` hashes of `w` bits that begin with `p` zeros and a one. -/
def sameRank (w p : Nat) : Finset Nat := Finset.Ico (2 ^ (w - 1 - p)) (2 ^ (w - p))

/-- The `2^p` hashes of `w` bits that end with `w - p` zeros. -/
def roundHashes (w p : Nat) : Finset Nat := (Finset.range (2 ^ p)).image (· * 2 ^ (w - p))

theorem card_sameStart : sameStart.card = 2 ^ 39 := by
  rw [sameStart, Nat.card_Ico]; norm_num

theorem card_sameRank {w p : Nat} (h : p < w) : (sameRank w p).card = 2 ^ (w - 1 - p) := by
  obtain ⟨k, hk⟩ : ∃ k, w = p + k + 1 := ⟨w - p - 1, by omega⟩
  rw [sameRank, Nat.card_Ico, show w - 1 - p = k by omega, show w - p = k + 1 by omega, pow_succ]
  omega

theorem card_roundHashes {w p : Nat} : (roundHashes w p).card = 2 ^ p := by
  rw [roundHashes, Finset.card_image_of_injective _ (fun x y h => Nat.eq_of_mul_eq_mul_right (Nat.two_pow_pos _) h),
    Finset.card_range]

/-- **C83.** Values whose hashes agree in the first 25 bits with the hash of a value already seen, and are
not all zero from bit `p` on, do not change what `HyperLogLogPlus::count` returns. -/
theorem C83_plus_unchanged {a b : Abs I} (h : Supported cfg c ops) (h' : Supported cfg c ops')
    (ha : (contents 64 18 ops)[i]? = some a) (hb : (contents 64 18 ops')[j]? = some b)
    (hp : a.p = b.p) (hsub : a.S ⊆ b.S)
    (hnew : ∀ x ∈ b.S, x ∉ a.S → x / 2 ^ 39 % 2 ^ (25 - a.p) ≠ 0 ∧ ∃ y ∈ a.S, y / 2 ^ 39 = x / 2 ^ 39) :
    later (Plus.api cfg ln c) ords ops [.count i] = later (Plus.api cfg ln c) ords ops' [.count j] := by
  obtain ⟨hp1, hp2, hS⟩ := contents_valid 64 18 ops a (mem_of_get ha)
  obtain ⟨_, _, hS'⟩ := contents_valid 64 18 ops' b (mem_of_get hb)
  have hc : codes a.p a.S = codes a.p b.S := by
    refine le_antisymm (Finset.image_subset_image hsub) ?_
    intro z hz
    obtain ⟨x, hx, rfl⟩ := Finset.mem_image.1 hz
    by_cases hxa : x ∈ a.S
    · exact Finset.mem_image_of_mem _ hxa
    · obtain ⟨h1, y, hy, h2⟩ := hnew x hx hxa
      refine Finset.mem_image.2 ⟨y, hy, ?_⟩
      simp only [code, h2, if_neg h1]
  have hr : regs 64 a.p a.S = regs 64 a.p b.S := by
    rw [regs, regs, reg_eq_of_codes hp1 hp2 hS hS' hc]
  rw [plus_count_val h ha, plus_count_val h' hb, ← hp]
  simp only [plusCount, fitsSparse, hc, hr]

/-- The sparse code of every hash in `sameStart` is 2. -/
theorem codes_sameStart {p : Nat} (hp : p ≤ 18) {S : Finset Nat} (hne : S.Nonempty) (hS : S ⊆ sameStart) :
    codes p S = {2} := by
  have hq : 1 < 2 ^ (25 - p) := Nat.one_lt_two_pow (by omega)
  have hall : ∀ x ∈ S, code p x = 2 := by
    intro x hx
    have h1 := Finset.mem_Ico.1 (hS hx)
    have h2 : x / 2 ^ 39 = 1 := by
      have := h1.1; have := h1.2; omega
    simp only [code, h2, Nat.mod_eq_of_lt hq]
    norm_num
  ext z
  simp only [codes, Finset.mem_image, Finset.mem_singleton]
  constructor
  · rintro ⟨x, hx, rfl⟩; exact hall x hx
  · rintro rfl
    obtain ⟨x, hx⟩ := hne
    exact ⟨x, hx, hall x hx⟩

/-- **C83.** A `HyperLogLogPlus` of any precision that has received any of the `2^39` values of
`sameStart`, however many, counts one (up to `2^-23`). -/
theorem C83_plus_hidden (hln : LnSpec ln) (h : Supported cfg c ops) {a : Abs I}
    (ha : (contents 64 18 ops)[i]? = some a) (hne : a.S.Nonempty) (hS : a.S ⊆ sameStart) :
    ∃ y : ℚ, later (Plus.api cfg ln c) ords ops [.count i] = .ok [.count (fin y)] ∧
      1 ≤ y ∧ y ≤ 1 + 1 / 2 ^ 23 := by
  obtain ⟨hp1, hp2, _⟩ := contents_valid 64 18 ops a (mem_of_get ha)
  have hc := codes_sameStart hp2 hne hS
  have hf : fitsSparse a.p a.S := by
    have h16 : 2 ^ 4 ≤ 2 ^ a.p := Nat.pow_le_pow_right (by norm_num) hp1
    have e : encSize {2} = 1 := by decide +kernel
    rw [fitsSparse, hc, e, capacity]
    omega
  rw [plus_count_val h ha, plusCount, if_pos hf, hc, Finset.card_singleton]
  obtain ⟨y, h1, h2, h3, _⟩ := sparse_bounds hln (n := 1) (by norm_num) (by norm_num)
  refine ⟨y, by rw [h1], by simpa using h2, h3.trans (by norm_num)⟩

/-- Every hash in `sameRank` belongs to register 0 with rank 1. -/
theorem sameRank_spec {w p x : Nat} (hp : p < w) (hx : x ∈ sameRank w p) :
    bucket w p x = 0 ∧ rank w p x = 1 := by
  obtain ⟨h1, h2⟩ := Finset.mem_Ico.1 hx
  obtain ⟨k, rfl⟩ : ∃ k, w = p + k + 1 := ⟨w - p - 1, by omega⟩
  rw [show p + k + 1 - 1 - p = k by omega] at h1
  rw [show p + k + 1 - p = k + 1 by omega] at h2
  refine ⟨by rw [bucket, show p + k + 1 - p = k + 1 by omega, Nat.div_eq_of_lt h2], ?_⟩
  rw [rank, show p + k + 1 - p = k + 1 by omega,
    firstOne_of_bounds (k := k) (by rwa [Nat.mod_eq_of_lt h2]) (by rwa [Nat.mod_eq_of_lt h2])]
  omega

/-- **C83.** A `HyperLogLogPF` of precision `p` that has received any of the `2^(31-p)` values of
`sameRank 32 p`, however many, counts one (up to 7 %). -/
theorem C83_pf_hidden (hln : LnSpec ln) (h : Supported cfg c ops) {a : Abs I}
    (ha : (contents 32 16 ops)[i]? = some a) (hne : a.S.Nonempty) (hS : a.S ⊆ sameRank 32 a.p) :
    ∃ y : ℚ, later (PF.api cfg ln c) ords ops [.count i] = .ok [.count (fin y)] ∧ 1 ≤ y ∧ y ≤ 1.07 := by
  obtain ⟨hp1, hp2, hlt⟩ := contents_valid 32 16 ops a (mem_of_get ha)
  have hM : Regs a.p (regs 32 a.p a.S) := regs_regs _ (by omega)
  have h16 : 2 ^ a.p ≤ 2 ^ 16 := Nat.pow_le_pow_right (by norm_num) hp2
  have h4 : 2 ^ 4 ≤ 2 ^ a.p := Nat.pow_le_pow_right (by norm_num) hp1
  have hb : a.S.image (bucket 32 a.p) = {0} := by
    ext z
    simp only [Finset.mem_image, Finset.mem_singleton]
    constructor
    · rintro ⟨x, hx, rfl⟩; exact (sameRank_spec (by omega) (hS hx)).1
    · rintro rfl
      obtain ⟨x, hx⟩ := hne
      exact ⟨x, hx, (sameRank_spec (by omega) (hS hx)).1⟩
  have hz := zeros_add_buckets (w := 32) (p := a.p) (by omega) hlt
  rw [hb, Finset.card_singleton] at hz
  have hle : ∀ r ∈ regs 32 a.p a.S, r ≤ 1 := by
    intro r hr
    obtain ⟨j, _, rfl⟩ := List.mem_map.1 hr
    refine Finset.sup_le fun x hx => ?_
    exact (sameRank_spec (by omega) (hS (Finset.mem_filter.1 hx).1)).2.le
  have hraw : rawQ a.p (hsum 0 (regs 32 a.p a.S)) ≤ 5 / 2 * 2 ^ a.p := by
    have h6 := hsum_ge_replicate (K := 1) (by omega) (by rw [hM.length]; omega) hle
    have h7 := rawNum_le hp1 (by omega : a.p ≤ 18)
    rw [hM.length] at h6
    push_cast at h6
    have hm : (0 : ℚ) < 2 ^ a.p := by positivity
    have e : rnd (5 / 2 * 2 ^ a.p : ℚ) = 5 / 2 * 2 ^ a.p := by
      have := rnd_of_int_mul (K := ℚ) (m := 5) (e := a.p - 1) (by norm_num) (by omega)
      rw [zpow_sub₀ (by norm_num), zpow_natCast] at this
      rw [show (5 / 2 * 2 ^ a.p : ℚ) = (5 : ℤ) * (2 ^ a.p / 2 ^ (1 : ℤ)) by norm_num; ring]
      exact_mod_cast this
    unfold rawQ
    apply rnd_le_of_le e
    rw [Rat.cast_id, div_le_iff₀ (by linarith)]
    refine h7.trans ?_
    generalize hsum 0 (regs 32 a.p a.S) = H at *
    generalize (2 : ℚ) ^ a.p = m at *
    nlinarith
  have h0 : (regs 32 a.p a.S).count 0 ≠ 0 := by rw [count_zero_regs]; omega
  rw [pf_count_val h ha]
  rcases pfRegime_cases ln hp1 hp2 a.S with ⟨_, _, _, hv⟩ | ⟨hn, _⟩
  · rw [count_zero_regs] at hv
    have hV : 0 < zeros 32 a.p a.S := by omega
    have hVm : zeros 32 a.p a.S ≤ 2 ^ a.p := by omega
    obtain ⟨y, h1, h2⟩ := linear_ge hln hV hVm (by omega)
    obtain ⟨y', h1', _, h3⟩ := linear_approx hln hV hVm (by omega)
    rw [h1] at h1'
    injection h1' with e
    subst e
    refine ⟨y, by rw [hv, h1], ?_, ?_⟩
    · have : ((2 ^ a.p : ℕ) : ℚ) = zeros 32 a.p a.S + 1 := by exact_mod_cast hz.symm
      rw [this] at h2
      linarith
    · have hm : ((2 ^ a.p : ℕ) : ℝ) = zeros 32 a.p a.S + 1 := by exact_mod_cast hz.symm
      have h15 : (15 : ℝ) ≤ zeros 32 a.p a.S := by
        have : 15 ≤ zeros 32 a.p a.S := by omega
        exact_mod_cast this
      have h65 : (zeros 32 a.p a.S : ℝ) ≤ 65536 := by
        have : zeros 32 a.p a.S ≤ 65536 := by omega
        exact_mod_cast this
      rw [hm] at h3
      generalize (zeros 32 a.p a.S : ℝ) = V at *
      have hl : Real.log ((V + 1) / V) ≤ 1 / V := by
        refine (Real.log_le_sub_one_of_pos (by positivity)).trans (le_of_eq ?_)
        field_simp; ring
      have h8 : (V + 1) * Real.log ((V + 1) / V) ≤ 16 / 15 := by
        refine (mul_le_mul_of_nonneg_left hl (by linarith)).trans ?_
        rw [mul_one_div, div_le_div_iff₀ (by linarith) (by norm_num)]
        linarith
      have h9 := (abs_le.1 h3).2
      have : (y : ℝ) ≤ ((1.07 : ℚ) : ℝ) := by
        generalize (V + 1) * Real.log ((V + 1) / V) = L at *
        norm_num at h9 ⊢
        linarith
      exact_mod_cast this
  · exact absurd ⟨hraw, h0⟩ hn

/-- With all the hashes of `roundHashes` every register has the largest value it can have. -/
theorem regs_roundHashes {w p : Nat} {S : Finset Nat} (hS : roundHashes w p ⊆ S) :
    regs w p S = List.replicate (2 ^ p) (w - p + 1) := by
  rw [regs, List.eq_replicate_iff]
  refine ⟨by simp, ?_⟩
  intro r hr
  obtain ⟨j, hj, rfl⟩ := List.mem_map.1 hr
  refine le_antisymm (reg_le w p S j) ?_
  have hx : j * 2 ^ (w - p) ∈ S := hS (Finset.mem_image.2 ⟨j, by simpa using hj, rfl⟩)
  have hb : bucket w p (j * 2 ^ (w - p)) = j := Nat.mul_div_cancel _ (Nat.two_pow_pos _)
  have hk : rank w p (j * 2 ^ (w - p)) = w - p + 1 := firstOne_zero (Nat.mul_mod_left _ _)
  rw [← hk]
  exact Finset.le_sup (f := rank w p) (Finset.mem_filter.2 ⟨hx, hb⟩)

/-- Then the raw estimate is at least `171/256 · 2^(w+1)`. -/
theorem raw_roundHashes {w p : Nat} (hp1 : 4 ≤ p) (hp2 : p ≤ 18) (hw : 32 ≤ w) (hw2 : w ≤ 64) {S : Finset Nat}
    (hS : roundHashes w p ⊆ S) : 171 * 2 ^ (w - 7) ≤ rawQ p (hsum 0 (regs w p S)) := by
  have h18 : 2 ^ p ≤ 2 ^ 18 := Nat.pow_le_pow_right (by norm_num) hp2
  have h1 := hsum_replicate (k := w - p + 1) (by omega) (2 ^ p) 0 (by omega)
  simp only [Nat.cast_zero, zero_mul, zero_add] at h1
  obtain ⟨h3, _⟩ := rawNum_bounds hp1 hp2
  obtain ⟨_, ha1, _⟩ := alpha_facts hp1 hp2
  have hm : (0 : ℚ) < 2 ^ p := by positivity
  rw [regs_roundHashes hS, h1]
  have e : rnd (171 * 2 ^ (w - 7) : ℚ) = 171 * 2 ^ (w - 7) := by
    have := rnd_of_int_mul (K := ℚ) (m := 171) (e := (w - 7 : ℕ)) (by norm_num) (by omega)
    exact_mod_cast this
  unfold rawQ
  apply le_rnd_of_le e
  rw [Rat.cast_id, Nat.cast_pow, Nat.cast_ofNat, le_div_iff₀ (by positivity)]
  have e2 : (171 : ℚ) * 2 ^ (w - 7) * (2 ^ p * (1 / 2 ^ (w - p + 1))) = 171 / 256 * (2 ^ p * 2 ^ p) := by
    have h5 : (2 : ℚ) ^ (w - p + 1) * 2 ^ p = 2 ^ (w - 7) * 256 := by
      rw [show (256 : ℚ) = 2 ^ 8 by norm_num, ← pow_add, ← pow_add]; congr 1; omega
    field_simp
    linarith
  rw [e2]
  refine le_trans ?_ h3
  have h6 : 67 / 100 * ((2 : ℚ) ^ p * 2 ^ p) ≤ alphaQ p * (2 ^ p * 2 ^ p) :=
    mul_le_mul_of_nonneg_right ha1 (by positivity)
  have h7 : (0 : ℚ) < 2 ^ p * 2 ^ p := by positivity
  generalize alphaQ p * ((2 : ℚ) ^ p * 2 ^ p) = z at *
  generalize (2 : ℚ) ^ p * 2 ^ p = m at *
  norm_num at h6 ⊢
  linarith

/-- **C83.** A `HyperLogLogPlus` of precision `p` that has received the `2^p` values of
`roundHashes 64 p`, whatever else it has received, directly or by merging, counts more than
`1.3 · 2^64`; by C60 no set of values gives more than `1.461 · 2^64`. -/
theorem C83_plus_inflated (hln : LnSpec ln) (h : Supported cfg c ops) {a : Abs I}
    (ha : (contents 64 18 ops)[i]? = some a) (hS : roundHashes 64 a.p ⊆ a.S) :
    ∃ y : ℚ, later (Plus.api cfg ln c) ords ops [.count i] = .ok [.count (fin y)] ∧
      171 * 2 ^ 57 ≤ y ∧ y ≤ 187 * 2 ^ 57 := by
  obtain ⟨hp1, hp2, hlt⟩ := contents_valid 64 18 ops a (mem_of_get ha)
  obtain ⟨y, hy, _, hup, _⟩ := C60_plus_bounds (ords := ords) hln h ha
  refine ⟨y, hy, ?_, hup⟩
  have h18 : 2 ^ a.p ≤ 2 ^ 18 := Nat.pow_le_pow_right (by norm_num) hp2
  have hM : Regs a.p (regs 64 a.p a.S) := regs_regs _ (by omega)
  have hraw := raw_roundHashes hp1 hp2 (by norm_num) le_rfl hS
  have hz0 : (regs 64 a.p a.S).count 0 = 0 := by
    rw [regs_roundHashes hS, List.count_replicate]
    simp
  have hf : ¬ fitsSparse a.p a.S := by
    have h1 := card_le_encSize (codes a.p a.S)
    have h2 := buckets_le_codes hp2 a.S
    have h3 := zeros_add_buckets (w := 64) (p := a.p) (by omega) hlt
    rw [count_zero_regs] at hz0
    have : 0 < 2 ^ a.p := Nat.two_pow_pos _
    rw [fitsSparse, capacity]
    omega
  have h5 : ¬ le (fin (rawQ a.p (hsum 0 (regs 64 a.p a.S)))) (num (5 * 2 ^ a.p)) = true := by
    rw [num, le_fin, not_le]
    refine lt_of_lt_of_le ?_ hraw
    have : (2 : ℚ) ^ a.p ≤ 2 ^ 18 := by exact_mod_cast h18
    push_cast
    norm_num at this ⊢
    linarith
  rw [plus_count_val h ha, plusCount, if_neg hf, plusDense, hz0, hM.raw_eq hp1 hp2, if_neg (by simp),
    if_neg h5] at hy
  injection hy with hy
  simp only [List.cons.injEq, and_true, Out.count.injEq, fin.injEq] at hy
  rw [← hy]
  exact hraw

/-- **C83.** A `HyperLogLogPF` of precision `p` that has received the `2^p` values of `roundHashes 32 p`,
whatever else it has received, directly or by merging, counts NaN. -/
theorem C83_pf_nan (hln : LnSpec ln) (h : Supported cfg c ops) {a : Abs I}
    (ha : (contents 32 16 ops)[i]? = some a) (hS : roundHashes 32 a.p ⊆ a.S) :
    later (PF.api cfg ln c) ords ops [.count i] = .ok [.count nan] := by
  obtain ⟨hp1, hp2, _⟩ := contents_valid 32 16 ops a (mem_of_get ha)
  obtain ⟨_, _, h3⟩ := pfDense_value hln hp1 hp2 (regs_regs (w := 32) (p := a.p) a.S (by omega))
  have hraw := raw_roundHashes hp1 (by omega) le_rfl (by norm_num) hS
  rw [pf_count_val h ha, pfCount, h3 (lt_of_lt_of_le (by norm_num) hraw)]

/-! ### For every program there are bad hashes -/

variable {N p : Nat} {prog : List (Op (Fin N))} {V : Finset (Fin N)}

/-- **C83.** For every program that uses at most `2^39` values there are different hashes of these values
such that every `HyperLogLogPlus` that received a value counts one. -/
theorem C83_plus_all_hidden (hln : LnSpec ln) (c : Serde.Codec (Fin N)) (hN : N ≤ 2 ^ 39)
    (hs : ∀ h, Supported cfg c (prog.map (withHashes h))) :
    ∃ h : Fin N → Fin (2 ^ 64), Function.Injective h ∧
      ∀ ords i p V, (received 18 prog)[i]? = some (p, V) → V.Nonempty →
        ∃ y : ℚ, later (Plus.api cfg ln c) ords (prog.map (withHashes h)) [.count i] = .ok [.count (fin y)] ∧
          1 ≤ y ∧ y ≤ 1 + 1 / 2 ^ 23 := by
  refine ⟨fun v => ⟨2 ^ 39 + v, by have := v.2; omega⟩, fun u v e => ?_, fun ords i p V hV hne => ?_⟩
  · have := congrArg Fin.val e
    simp only at this
    exact Fin.ext (by omega)
  · have ha := congrArg (fun l => l[i]?) (contents_meaning 64 18
      (fun v : Fin N => (⟨2 ^ 39 + v, by have := v.2; omega⟩ : Fin (2 ^ 64))) prog)
    simp only [List.getElem?_map, hV, Option.map_some] at ha
    refine C83_plus_hidden hln (hs _) ha (hne.image _) ?_
    intro x hx
    obtain ⟨v, _, rfl⟩ := Finset.mem_image.1 hx
    have := v.2
    refine Finset.mem_Ico.2 ?_
    simp only
    omega

/-- A one-to-one assignment of hashes that gives given different hashes to some of `2^p` values. -/
theorem exists_hashes {w : Nat} (hp : p ≤ w) (hw : w ≤ 64) (hN : N ≤ 2 ^ 64) (hc : 2 ^ p ≤ V.card) :
    ∃ h : Fin N → Fin (2 ^ 64), Function.Injective h ∧
      roundHashes w p ⊆ V.image fun v => (h v : Nat) % 2 ^ w := by
  classical
  obtain ⟨T, hTV, hT⟩ := Finset.exists_subset_card_eq hc
  have hlt : ∀ x ∈ roundHashes w p, x < 2 ^ w := by
    intro x hx
    obtain ⟨j, hj, rfl⟩ := Finset.mem_image.1 hx
    have h1 : 2 ^ w = 2 ^ p * 2 ^ (w - p) := by rw [← pow_add]; congr 1; omega
    rw [h1]
    exact Nat.mul_lt_mul_of_pos_right (Finset.mem_range.1 hj) (Nat.two_pow_pos _)
  have hw64 : 2 ^ w ≤ 2 ^ 64 := Nat.pow_le_pow_right (by norm_num) hw
  have e : T ≃ roundHashes w p := Finset.equivOfCardEq (by rw [hT, card_roundHashes])
  let f : Fin N → Fin (2 ^ 64) := fun v =>
    if hv : v ∈ T then ⟨e ⟨v, hv⟩, (hlt _ (e ⟨v, hv⟩).2).trans_le hw64⟩ else 0
  have hinj : Set.InjOn f T := by
    intro u hu v hv he
    have hu' : u ∈ T := hu
    have hv' : v ∈ T := hv
    simp only [f, dif_pos hu', dif_pos hv', Fin.mk.injEq] at he
    have := e.injective (Subtype.ext he)
    exact congrArg Subtype.val this
  have hcard : T.card ≤ N := by
    have := Finset.card_le_univ T
    rwa [Fintype.card_fin] at this
  obtain ⟨t, ht1, _, ht2⟩ := Finset.exists_subsuperset_card_eq (Finset.subset_univ (T.image f)) (n := N)
    (Finset.card_image_le.trans hcard) (by rw [Finset.card_univ, Fintype.card_fin]; exact hN)
  obtain ⟨g, hg⟩ := Finset.exists_equiv_extend_of_card_eq (by rw [Fintype.card_fin, ht2]) ht1 hinj
  refine ⟨fun v => g v, fun u v h => g.injective (Subtype.ext h), fun x hx => ?_⟩
  obtain ⟨v, hv⟩ := e.surjective ⟨x, hx⟩
  refine Finset.mem_image.2 ⟨v, hTV v.2, ?_⟩
  simp only
  rw [hg v v.2]
  simp only [f, dif_pos v.2, Subtype.coe_eta, hv]
  exact Nat.mod_eq_of_lt (hlt x hx)

/-- **C83.** For every program and every `HyperLogLogPlus` in it that received at least `2^p` values there are
different hashes of the values such that it counts more than `1.3 · 2^64`. -/
theorem C83_plus_some_inflated (hln : LnSpec ln) (c : Serde.Codec (Fin N)) (hN : N ≤ 2 ^ 64)
    (hs : ∀ h, Supported cfg c (prog.map (withHashes h))) (hV : (received 18 prog)[i]? = some (p, V))
    (hc : 2 ^ p ≤ V.card) :
    ∃ h : Fin N → Fin (2 ^ 64), Function.Injective h ∧ ∀ ords,
      ∃ y : ℚ, later (Plus.api cfg ln c) ords (prog.map (withHashes h)) [.count i] = .ok [.count (fin y)] ∧
        171 * 2 ^ 57 ≤ y := by
  obtain ⟨h, hi, hS⟩ := exists_hashes (w := 64) (by have := received_le hV; omega) le_rfl hN hc
  refine ⟨h, hi, fun ords => ?_⟩
  have ha : (contents 64 18 (prog.map (withHashes h)))[i]? = some (meaning 64 h (p, V)) := by
    rw [contents_meaning, List.getElem?_map, hV]; rfl
  obtain ⟨y, h1, h2, _⟩ := C83_plus_inflated hln (hs h) ha hS
  exact ⟨y, h1, h2⟩

/-- **C83.** For every program and every `HyperLogLogPF` in it that received at least `2^p` values there are
different hashes of the values such that it counts NaN. -/
theorem C83_pf_some_nan (hln : LnSpec ln) (c : Serde.Codec (Fin N)) (hN : N ≤ 2 ^ 64)
    (hs : ∀ h, Supported cfg c (prog.map (withHashes h))) (hV : (received 16 prog)[i]? = some (p, V))
    (hc : 2 ^ p ≤ V.card) :
    ∃ h : Fin N → Fin (2 ^ 64), Function.Injective h ∧ ∀ ords,
      later (PF.api cfg ln c) ords (prog.map (withHashes h)) [.count i] = .ok [.count nan] := by
  obtain ⟨h, hi, hS⟩ := exists_hashes (w := 32) (by have := received_le hV; omega) (by norm_num) hN hc
  refine ⟨h, hi, fun ords => ?_⟩
  have ha : (contents 32 16 (prog.map (withHashes h)))[i]? = some (meaning 32 h (p, V)) := by
    rw [contents_meaning, List.getElem?_map, hV]; rfl
  exact C83_pf_nan hln (hs h) ha hS

/-- Instance: there are different hashes of a million values such that a `HyperLogLogPlus` of precision 18
with these values counts one. -/
example (hln : LnSpec ln) :
    ∃ h : Fin 1000000 → Fin (2 ^ 64), Function.Injective h ∧ ∃ y : ℚ,
      later (Plus.api Cfg.debug64 ln (noCodec _)) ords ((benchCount 18 1000000 0).map (withHashes h)) [.count 0] =
        .ok [.count (fin y)] ∧ 1 ≤ y ∧ y ≤ 1 + 1 / 2 ^ 23 := by
  obtain ⟨h, h1, h2⟩ := C83_plus_all_hidden (cfg := Cfg.debug64) hln (noCodec (Fin 1000000)) (by norm_num)
    (fun h => supported64 rfl _ (benchCount_reload (p := 18) 0 h))
  exact ⟨h, h1, h2 ords 0 18 Finset.univ (received_benchCount 0 (by norm_num) (by norm_num))
    ⟨0, Finset.mem_univ _⟩⟩

/-- Instances: there are different hashes of 16 values such that a `HyperLogLogPlus` of precision 4 with these values
counts more than `1.3 · 2^64`, and such that a `HyperLogLogPF` counts NaN. -/
example (hln : LnSpec ln) :
    ∃ h : Fin 16 → Fin (2 ^ 64), Function.Injective h ∧ ∀ ords, ∃ y : ℚ,
      later (Plus.api Cfg.debug64 ln (noCodec _)) ords ((benchCount 4 16 0).map (withHashes h)) [.count 0] =
        .ok [.count (fin y)] ∧ 171 * 2 ^ 57 ≤ y :=
  C83_plus_some_inflated hln (noCodec (Fin 16)) (by norm_num)
    (fun h => supported64 rfl _ (benchCount_reload (p := 4) 0 h))
    (received_benchCount 0 (by norm_num) (by norm_num)) (by rw [Finset.card_univ, Fintype.card_fin]; norm_num)

example (hln : LnSpec ln) :
    ∃ h : Fin 16 → Fin (2 ^ 64), Function.Injective h ∧ ∀ ords,
      later (PF.api Cfg.debug64 ln (noCodec _)) ords ((benchCount 4 16 0).map (withHashes h)) [.count 0] =
        .ok [.count nan] :=
  C83_pf_some_nan hln (noCodec (Fin 16)) (by norm_num)
    (fun h => supported64 rfl _ (benchCount_reload (p := 4) 0 h))
    (received_benchCount 0 (by norm_num) (by norm_num)) (by rw [Finset.card_univ, Fintype.card_fin]; norm_num)

/-- The values `0 … 9` with ten hashes of `sameStart`, or (as 32-bit hashes at precision 4) of `sameRank`. -/
def demoChosen (start n : Nat) : List (Op (Fin 10)) :=
  .new 4 (fun v => BitVec.ofNat 64 (start + v)) ::
    ((List.finRange 10).take n).map fun v => .insert .insert 0 v

/-- Instances: the hypotheses of `C83_plus_unchanged`, `C83_plus_hidden` and `C83_pf_hidden` with one and ten
values. -/
example : ∃ a b, (contents 64 18 (demoChosen (2 ^ 39) 1))[0]? = some a ∧
    (contents 64 18 (demoChosen (2 ^ 39) 10))[0]? = some b ∧ a.p = b.p ∧ a.S ⊆ b.S ∧ b.S.card = 10 ∧
    (∀ x ∈ b.S, x ∉ a.S → x / 2 ^ 39 % 2 ^ (25 - a.p) ≠ 0 ∧ ∃ y ∈ a.S, y / 2 ^ 39 = x / 2 ^ 39) :=
  ⟨_, _, rfl, rfl, rfl, by decide +kernel, by decide +kernel, by decide +kernel⟩

example : ∃ a, (contents 64 18 (demoChosen (2 ^ 39) 10))[0]? = some a ∧ a.S.card = 10 ∧ a.S ⊆ sameStart := by
  refine ⟨_, rfl, by decide +kernel, fun x hx => Finset.mem_Ico.2 ?_⟩
  revert x
  decide +kernel

example : ∃ a, (contents 32 16 (demoChosen (2 ^ 27) 10))[0]? = some a ∧ a.S.card = 10 ∧ a.S ⊆ sameRank 32 a.p := by
  refine ⟨_, rfl, by decide +kernel, fun x hx => Finset.mem_Ico.2 ?_⟩
  revert x
  decide +kernel

end HLL
