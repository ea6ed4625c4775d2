import Verif.Props.Small

/-!
# C67: how often the example of the documentation fails

README.md and the doc comments of both types insert two values into a sketch of precision 16 and assert
that `count`, rounded down, is 2.  With a random hash function the assertion fails with a small probability,
which is computed here exactly.
-/

namespace HLL
open Spec F64

/-! ## Counting pairs of hashes with equal codes -/

theorem sum_range_mul (m n : Nat) (f : Nat → Nat) :
    ∑ a ∈ Finset.range (m * n), f a = ∑ i ∈ Finset.range m, ∑ l ∈ Finset.range n, f (i * n + l) := by
  induction m with
  | zero => simp
  | succ m ih => rw [Nat.add_mul, Nat.one_mul, Finset.sum_range_add, ih, Finset.sum_range_succ]

/-- The number of pairs of `n`-bit strings with equal rank. -/
def samePairs (n : Nat) : Nat :=
  ∑ a ∈ Finset.range (2 ^ n), ∑ b ∈ Finset.range (2 ^ n), if firstOne n a = firstOne n b then 1 else 0

theorem samePairs_succ (n : Nat) : samePairs (n + 1) = 4 ^ n + samePairs n := by
  have h1 : ∀ a ∈ Finset.range (2 ^ n), firstOne (n + 1) a = 1 + firstOne n a := by
    intro a ha
    rw [firstOne, if_neg]
    rw [Nat.testBit_lt_two_pow (Finset.mem_range.1 ha)]
    simp
  have h2 : ∀ a ∈ Finset.range (2 ^ n), firstOne (n + 1) (2 ^ n + a) = 1 := by
    intro a ha
    rw [firstOne, if_pos]
    rw [Nat.testBit_two_pow_add_eq, Nat.testBit_lt_two_pow (Finset.mem_range.1 ha)]
    rfl
  have h3 : ∀ a, 1 ≤ firstOne n a := firstOne_pos n
  rw [samePairs, pow_succ, mul_two, Finset.sum_range_add]
  simp only [Finset.sum_range_add]
  have e1 : ∀ a ∈ Finset.range (2 ^ n),
      ((∑ b ∈ Finset.range (2 ^ n), if firstOne (n + 1) a = firstOne (n + 1) b then 1 else 0) +
        ∑ b ∈ Finset.range (2 ^ n), if firstOne (n + 1) a = firstOne (n + 1) (2 ^ n + b) then 1 else 0) =
      ∑ b ∈ Finset.range (2 ^ n), if firstOne n a = firstOne n b then 1 else 0 := by
    intro a ha
    have := h3 a
    rw [Finset.sum_eq_zero (s := Finset.range (2 ^ n))
      (f := fun b => if firstOne (n + 1) a = firstOne (n + 1) (2 ^ n + b) then 1 else 0), Nat.add_zero]
    · refine Finset.sum_congr rfl fun b hb => ?_
      rw [h1 a ha, h1 b hb]
      simp only [Nat.add_left_cancel_iff]
    · intro b hb
      rw [h1 a ha, h2 b hb, if_neg (by omega)]
  have e2 : ∀ a ∈ Finset.range (2 ^ n),
      ((∑ b ∈ Finset.range (2 ^ n), if firstOne (n + 1) (2 ^ n + a) = firstOne (n + 1) b then 1 else 0) +
        ∑ b ∈ Finset.range (2 ^ n),
          if firstOne (n + 1) (2 ^ n + a) = firstOne (n + 1) (2 ^ n + b) then 1 else 0) = 2 ^ n := by
    intro a ha
    rw [Finset.sum_eq_zero (s := Finset.range (2 ^ n))
      (f := fun b => if firstOne (n + 1) (2 ^ n + a) = firstOne (n + 1) b then 1 else 0), Nat.zero_add]
    · rw [Finset.sum_congr rfl (g := fun _ => 1)]
      · simp
      · intro b hb
        rw [h2 a ha, h2 b hb, if_pos rfl]
    · intro b hb
      have := h3 b
      rw [h2 a ha, h1 b hb, if_neg (by omega)]
  rw [Finset.sum_congr rfl e1, Finset.sum_congr rfl e2, Finset.sum_const, Finset.card_range, smul_eq_mul,
    samePairs, ← mul_pow, Nat.add_comm]
  rfl

theorem samePairs_eq : ∀ n, 3 * samePairs n = 4 ^ n + 2
  | 0 => by rfl
  | n + 1 => by
    rw [samePairs_succ, Nat.mul_add, samePairs_eq n, pow_succ]
    omega

/-- Codes are equal iff the prefixes are, and where the code contains the rank, the ranks are. -/
theorem code_eq_iff {p i i' l l' : Nat} (hl : l < 2 ^ 39) (hl' : l' < 2 ^ 39) :
    code p (i * 2 ^ 39 + l) = code p (i' * 2 ^ 39 + l') ↔
      i = i' ∧ (i % 2 ^ (25 - p) = 0 → firstOne 39 l = firstOne 39 l') := by
  have d : ∀ {i l : Nat}, l < 2 ^ 39 → (i * 2 ^ 39 + l) / 2 ^ 39 = i := by
    intro i l h
    rw [Nat.mul_comm, Nat.mul_add_div (by norm_num), Nat.div_eq_of_lt h, Nat.add_zero]
  have f : ∀ {i l : Nat}, l < 2 ^ 39 → firstOne 39 (i * 2 ^ 39 + l) = firstOne 39 l := by
    intro i l h
    rw [← firstOne_mod, Nat.mul_comm, Nat.mul_add_mod, Nat.mod_eq_of_lt h]
  simp only [code, d hl, d hl', f hl, f hl']
  have a1 := firstOne_le 39 l
  have a2 := firstOne_le 39 l'
  by_cases e : i % 2 ^ (25 - p) = 0 <;> by_cases e' : i' % 2 ^ (25 - p) = 0
  · rw [if_pos e, if_pos e']
    constructor
    · intro h; exact ⟨by omega, fun _ => by omega⟩
    · rintro ⟨rfl, h⟩; rw [h e]
  · rw [if_pos e, if_neg e']
    constructor
    · intro h; omega
    · rintro ⟨rfl, h⟩; exact absurd e e'
  · rw [if_neg e, if_pos e']
    constructor
    · intro h; omega
    · rintro ⟨rfl, h⟩; exact absurd e' e
  · rw [if_neg e, if_neg e']
    constructor
    · intro h; exact ⟨by omega, fun h => absurd h e⟩
    · rintro ⟨rfl, h⟩; rfl

theorem card_multiples (p : Nat) (hp : p ≤ 25) :
    ((Finset.range (2 ^ 25)).filter fun i => i % 2 ^ (25 - p) = 0).card = 2 ^ p := by
  rw [← Finset.card_range (2 ^ p)]
  symm
  refine Finset.card_bij (fun j _ => j * 2 ^ (25 - p)) ?_ ?_ ?_
  · intro j hj
    rw [Finset.mem_range] at hj
    rw [Finset.mem_filter, Finset.mem_range]
    refine ⟨?_, Nat.mul_mod_left _ _⟩
    calc j * 2 ^ (25 - p) < 2 ^ p * 2 ^ (25 - p) := Nat.mul_lt_mul_of_pos_right hj (Nat.two_pow_pos _)
      _ = 2 ^ 25 := by rw [← pow_add]; congr 1; omega
  · intro a _ b _ h
    exact Nat.eq_of_mul_eq_mul_right (Nat.two_pow_pos _) h
  · intro i hi
    rw [Finset.mem_filter, Finset.mem_range] at hi
    refine ⟨i / 2 ^ (25 - p), ?_, Nat.div_mul_cancel (Nat.dvd_of_mod_eq_zero hi.2)⟩
    rw [Finset.mem_range, Nat.div_lt_iff_lt_mul (Nat.two_pow_pos _), ← pow_add]
    rw [show p + (25 - p) = 25 by omega]
    exact hi.1

/-- The number of pairs of 64-bit hashes with the same code. -/
theorem sum_code_pairs {p : Nat} (hp : p ≤ 25) :
    (∑ a ∈ Finset.range (2 ^ 64), ∑ b ∈ Finset.range (2 ^ 64), if code p a = code p b then 1 else 0) =
      2 ^ p * samePairs 39 + (2 ^ 25 - 2 ^ p) * 4 ^ 39 := by
  have h64 : (2 : Nat) ^ 64 = 2 ^ 25 * 2 ^ 39 := by norm_num
  rw [h64, sum_range_mul]
  have h1 : ∀ i ∈ Finset.range (2 ^ 25), (∑ l ∈ Finset.range (2 ^ 39), ∑ b ∈ Finset.range (2 ^ 25 * 2 ^ 39),
      if code p (i * 2 ^ 39 + l) = code p b then 1 else 0) =
      if i % 2 ^ (25 - p) = 0 then samePairs 39 else 4 ^ 39 := by
    intro i hi
    have h2 : ∀ l ∈ Finset.range (2 ^ 39), (∑ b ∈ Finset.range (2 ^ 25 * 2 ^ 39),
        if code p (i * 2 ^ 39 + l) = code p b then 1 else 0) =
        ∑ l' ∈ Finset.range (2 ^ 39), if i % 2 ^ (25 - p) = 0 → firstOne 39 l = firstOne 39 l' then 1 else 0 := by
      intro l hl
      rw [sum_range_mul, Finset.sum_eq_single i]
      · refine Finset.sum_congr rfl fun l' hl' => ?_
        simp only [code_eq_iff (Finset.mem_range.1 hl) (Finset.mem_range.1 hl'), true_and]
      · intro i' _ hne
        refine Finset.sum_eq_zero fun l' hl' => ?_
        rw [if_neg]
        rw [code_eq_iff (Finset.mem_range.1 hl) (Finset.mem_range.1 hl')]
        exact fun h => hne h.1.symm
      · intro h; exact absurd hi h
    rw [Finset.sum_congr rfl h2]
    by_cases e : i % 2 ^ (25 - p) = 0
    · simp only [e, true_imp_iff, if_true]
      rfl
    · simp only [e, false_imp_iff, if_true, if_false, Finset.sum_const, Finset.card_range, smul_eq_mul]
      norm_num
  rw [Finset.sum_congr rfl h1, Finset.sum_ite, Finset.sum_const, Finset.sum_const, card_multiples p hp,
    smul_eq_mul, smul_eq_mul]
  have h3 := Finset.card_filter_add_card_filter_not (s := Finset.range (2 ^ 25))
    (fun i => i % 2 ^ (25 - p) = 0)
  rw [card_multiples p hp, Finset.card_range] at h3
  have h4 := Nat.eq_sub_of_add_eq' h3
  rw [h4]

/-- Pairs of hashes, as functions on `Fin 2`. -/
theorem card_two (n : Nat) (f : Nat → Nat) :
    (Finset.univ.filter fun g : Fin 2 → Fin n => f (g 0) = f (g 1)).card =
      ∑ a ∈ Finset.range n, ∑ b ∈ Finset.range n, if f a = f b then 1 else 0 := by
  rw [Finset.card_filter, ← Finset.sum_equiv (finTwoArrowEquiv (Fin n)).symm
    (s := Finset.univ) (f := fun z => if f z.1 = f z.2 then 1 else 0) (by simp) (by
      intro z _; simp [finTwoArrowEquiv])]
  rw [Fintype.sum_prod_type, Finset.sum_range]
  refine Finset.sum_congr rfl fun a _ => ?_
  rw [Finset.sum_range]

theorem fraction_congr {n : Nat} {P Q : (Fin n → Fin (2 ^ 64)) → Prop} (h : ∀ x, P x ↔ Q x) :
    fraction P = fraction Q := congrArg fraction (funext fun x => propext (h x))

/-- Two random hashes have the same code with exactly this probability. -/
theorem fraction_same_code {p : Nat} (hp : p ≤ 25) :
    fraction (fun g : Fin 2 → Fin (2 ^ 64) => code p (g 0) = code p (g 1)) =
      (3 * (2 ^ 25 - 2 ^ p) * 4 ^ 39 + 2 ^ p * (4 ^ 39 + 2)) / (3 * 2 ^ 128) := by
  have h1 := card_two (2 ^ 64) (code p)
  rw [sum_code_pairs hp] at h1
  have h2 : (3 : ℝ) * samePairs 39 = 4 ^ 39 + 2 := by exact_mod_cast samePairs_eq 39
  have h3 : ((2 ^ 25 - 2 ^ p : ℕ) : ℝ) = 2 ^ 25 - 2 ^ p := by
    rw [Nat.cast_sub (Nat.pow_le_pow_right (by norm_num) hp), Nat.cast_pow, Nat.cast_pow, Nat.cast_ofNat]
  have h4 : ((Finset.univ.filter fun g : Fin 2 → Fin (2 ^ 64) => code p (g 0) = code p (g 1)).card : ℝ) =
      2 ^ p * samePairs 39 + (2 ^ 25 - 2 ^ p) * 4 ^ 39 := by
    rw [h1, Nat.cast_add, Nat.cast_mul, Nat.cast_mul, h3, Nat.cast_pow, Nat.cast_pow, Nat.cast_ofNat,
      Nat.cast_ofNat]
  have h5 : (Fintype.card (Fin 2 → Fin (2 ^ 64)) : ℝ) = 2 ^ 128 := by
    rw [Fintype.card_fun, Fintype.card_fin, Fintype.card_fin, ← pow_mul, Nat.cast_pow, Nat.cast_ofNat]
  have h6 : fraction (fun g : Fin 2 → Fin (2 ^ 64) => code p (g 0) = code p (g 1)) =
      (2 ^ p * samePairs 39 + (2 ^ 25 - 2 ^ p) * 4 ^ 39) / 2 ^ 128 := by
    rw [← h4, ← h5]
    unfold fraction
    congr!
  rw [h6, div_eq_div_iff (by positivity) (by positivity)]
  generalize (4 : ℝ) ^ 39 = A at *
  generalize (2 : ℝ) ^ 128 = B at *
  generalize (2 : ℝ) ^ 25 = C at *
  linear_combination 2 ^ p * B * h2

/-! ## Registers hit by distinct values -/

/-- The occupied registers. -/
theorem occupied {w p n : Nat} (hp : p ≤ w) (h : Fin n → Fin (2 ^ 64)) :
    zeros w p (hashSet w h) + (Finset.univ.image fun i => bucket w p ((h i : Nat) % 2 ^ w)).card =
      2 ^ p := by
  have h1 := Finset.card_filter_add_card_filter_not (s := Finset.range (2 ^ p))
    (fun j => reg w p (hashSet w h) j = 0)
  rw [Finset.card_range] at h1
  refine Eq.trans (congrArg _ (congrArg _ ?_)) h1
  ext j
  rw [Finset.mem_filter, Finset.mem_range]
  simp only [Finset.mem_image, Finset.mem_univ, true_and, reg_eq_zero_iff, hashSet, not_forall]
  constructor
  · rintro ⟨i, rfl⟩
    exact ⟨bucket_lt hp (Nat.mod_lt _ (Nat.two_pow_pos _)), _, ⟨i, rfl⟩, fun h => h rfl⟩
  · rintro ⟨_, _, ⟨i, rfl⟩, h2⟩
    exact ⟨i, not_not.1 h2⟩

/-- The number of assignments of hashes that put all values in different registers. -/
theorem card_injective {w p : Nat} (hp : p ≤ w) (hw : w ≤ 64) (n : Nat) :
    (Finset.univ.filter fun h : Fin n → Fin (2 ^ 64) =>
      Function.Injective fun i => bucket w p ((h i : Nat) % 2 ^ w)).card =
      (2 ^ p).descFactorial n * (2 ^ (64 - p)) ^ n := by
  have hlt : ∀ x : Fin (2 ^ 64), bucket w p ((x : Nat) % 2 ^ w) < 2 ^ p := fun x =>
    bucket_lt hp (Nat.mod_lt _ (Nat.two_pow_pos _))
  have hcard := fun j hj => card_bucket (w := w) (p := p) (j := j) hp hw hj
  generalize 64 - p = q at *
  generalize hf : (fun x : Fin (2 ^ 64) => bucket w p ((x : Nat) % 2 ^ w)) = f
  have hf' : ∀ x : Fin (2 ^ 64), bucket w p ((x : Nat) % 2 ^ w) = f x := fun x => by rw [← hf]
  simp only [hf'] at hlt hcard ⊢
  clear hf hf'
  generalize 2 ^ 64 = H at *
  generalize 2 ^ p = m at *
  let F : (Fin n → Fin H) → (Fin n → Fin m) := fun h i => ⟨f (h i), hlt _⟩
  rw [Finset.card_eq_sum_card_fiberwise (f := F)
    (t := Finset.univ.filter fun φ : Fin n → Fin m => Function.Injective φ)]
  · rw [Finset.sum_congr rfl (g := fun _ => (2 ^ q) ^ n)]
    · rw [Finset.sum_const, smul_eq_mul]
      congr 1
      rw [← Fintype.card_subtype, Fintype.card_congr (Equiv.subtypeInjectiveEquivEmbedding _ _),
        Fintype.card_embedding_eq, Fintype.card_fin, Fintype.card_fin]
    · intro φ hφ
      rw [Finset.mem_filter] at hφ
      rw [show (Finset.filter (fun h => F h = φ)
          (Finset.univ.filter fun h : Fin n → Fin H => Function.Injective fun i => f (h i))) =
          Fintype.piFinset fun i => Finset.univ.filter fun x : Fin H => f x = φ i from ?_]
      · rw [Fintype.card_piFinset, Finset.prod_congr rfl fun i _ => hcard (φ i) (φ i).2, Finset.prod_const,
          Finset.card_univ, Fintype.card_fin]
      · ext h
        simp only [Finset.mem_filter, Finset.mem_univ, true_and, Fintype.mem_piFinset]
        constructor
        · rintro ⟨_, rfl⟩ i; rfl
        · intro h1
          refine ⟨?_, funext fun i => Fin.ext (h1 i)⟩
          intro a b hab
          exact hφ.2 (Fin.ext (by rw [← h1, ← h1]; exact hab))
  · intro h hh
    simp only [Finset.coe_filter, Finset.mem_univ, true_and, Set.mem_ofPred_eq] at hh ⊢
    intro a b hab
    exact hh (Fin.ext_iff.1 hab)

theorem fraction_injective {w p : Nat} (hp : p ≤ w) (hw : w ≤ 64) (n : Nat) :
    fraction (fun h : Fin n → Fin (2 ^ 64) => zeros w p (hashSet w h) + n = 2 ^ p) =
      ∏ k ∈ Finset.range n, (1 - (k : ℝ) / 2 ^ p) := by
  have h0 : fraction (fun h : Fin n → Fin (2 ^ 64) => zeros w p (hashSet w h) + n = 2 ^ p) =
      fraction fun h : Fin n → Fin (2 ^ 64) =>
        Function.Injective fun i => bucket w p ((h i : Nat) % 2 ^ w) := by
    refine fraction_congr fun h => ?_
    have h1 := occupied hp h
    have h2 : Function.Injective (fun i => bucket w p ((h i : Nat) % 2 ^ w)) ↔
        (Finset.univ.image fun i => bucket w p ((h i : Nat) % 2 ^ w)).card = n := by
      have := Finset.card_image_iff (s := (Finset.univ : Finset (Fin n)))
        (f := fun i => bucket w p ((h i : Nat) % 2 ^ w))
      rw [Finset.card_univ, Fintype.card_fin, Finset.coe_univ, Set.injOn_univ] at this
      exact this.symm
    rw [h2]
    omega
  rw [h0]
  have h1 := card_injective hp hw n
  have h2 : (Fintype.card (Fin n → Fin (2 ^ 64)) : ℝ) = (2 ^ p) ^ n * (2 ^ (64 - p)) ^ n := by
    rw [Fintype.card_fun, Fintype.card_fin, Fintype.card_fin, ← mul_pow, ← pow_add,
      show p + (64 - p) = 64 by omega, Nat.cast_pow, Nat.cast_pow, Nat.cast_ofNat]
  have h3 : fraction (fun h : Fin n → Fin (2 ^ 64) =>
        Function.Injective fun i => bucket w p ((h i : Nat) % 2 ^ w)) =
      ((2 ^ p).descFactorial n : ℝ) / (2 ^ p) ^ n := by
    rw [← mul_div_mul_right _ _ (show ((2 : ℝ) ^ (64 - p)) ^ n ≠ 0 by positivity), ← h2]
    unfold fraction
    congr 1
    have h4 : ((2 : ℝ) ^ (64 - p)) ^ n = (((2 ^ (64 - p)) ^ n : ℕ) : ℝ) := by
      rw [Nat.cast_pow, Nat.cast_pow, Nat.cast_ofNat]
    rw [h4, ← Nat.cast_mul, ← h1]
    congr!
  rw [h3]
  clear h0 h1 h2 h3
  have hm : (2 : ℝ) ^ p ≠ 0 := by positivity
  induction n with
  | zero => simp
  | succ n ih =>
    rw [Finset.prod_range_succ, ← ih, Nat.descFactorial_succ, pow_succ]
    rcases Nat.lt_or_ge (2 ^ p) n with h | h
    · rw [Nat.descFactorial_eq_zero_iff_lt.2 h]; simp
    · rw [Nat.cast_mul, Nat.cast_sub h, Nat.cast_pow, Nat.cast_ofNat]
      field_simp

variable {N : Nat} {cfg : Cfg} {ln : F64 → F64} {ords : Nat → IterOrder × IterOrder} {p i : Nat}
  {ops : List (Op (Fin N))} {V : Finset (Fin N)}

/-- **C67** for `HyperLogLogPlus`: run any program, with random hashes, after which sketch `i` of
precision `p` received exactly two distinct values.  The probability that `count`, rounded down, is not 2
is exactly `(2^25 - 2^p)/2^50 + 2^p (4^39 + 2)/(3 · 2^128)`: the probability that the two sparse codes are
equal. -/
theorem C67_plus_two (hln : LnSpec ln) (c : Serde.Codec (Fin N))
    (hs : ∀ h, Supported cfg c (ops.map (withHashes h)))
    (hV : (received 18 ops)[i]? = some (p, V)) (hn : V.card = 2) :
    fraction (fun h : Fin N → Fin (2 ^ 64) => ¬ ∃ y : ℚ,
        later (Plus.api cfg ln c) ords (ops.map (withHashes h)) [.count i] = .ok [.count (fin y)] ∧
        ⌊y⌋ = 2) =
      (2 ^ 25 - 2 ^ p) / 2 ^ 50 + 2 ^ p * (4 ^ 39 + 2) / (3 * 2 ^ 128) := by
  have hp2 : p ≤ 18 := received_le hV
  have hp1 : 4 ≤ p := received_ge hV
  let P : Finset Nat → Prop := fun S => ¬ ∃ y : ℚ, plusCount ln (Plus.biasOf cfg.search) p S = fin y ∧ ⌊y⌋ = 2
  have e : fraction (fun h : Fin N → Fin (2 ^ 64) => P (V.image fun v => (h v : Nat) % 2 ^ 64)) =
      fraction (fun g : Fin 2 → Fin (2 ^ 64) => code p (g 0) = code p (g 1)) := by
    rw [fraction_restrict]
    have key : ∀ n, n = 2 → fraction (fun g : Fin n → Fin (2 ^ 64) => P (hashSet 64 g)) =
        fraction (fun g : Fin 2 → Fin (2 ^ 64) => code p (g 0) = code p (g 1)) := by
      rintro _ rfl
      refine fraction_congr fun g => ?_
      have h1 := card_codes_le p g
      have hm : 16 ≤ 2 ^ p := by
        calc 16 = 2 ^ 4 := by norm_num
          _ ≤ 2 ^ p := Nat.pow_le_pow_right (by norm_num) hp1
      obtain ⟨y, h3, h4⟩ := plus_small hln (Plus.biasOf cfg.search) (p := p) (hashSet_lt g)
        (by rw [capacity]; omega) (by omega)
      have h5 : codes p (hashSet 64 g) = {code p (g 0), code p (g 1)} := by
        ext x
        simp only [codes, hashSet, Finset.mem_image, Finset.mem_univ, true_and, Finset.mem_insert,
          Finset.mem_singleton, Fin.exists_fin_two]
        rw [Nat.mod_eq_of_lt (g 0).2, Nat.mod_eq_of_lt (g 1).2]
        constructor
        · rintro ⟨_, rfl | rfl, rfl⟩
          · exact Or.inl rfl
          · exact Or.inr rfl
        · rintro (rfl | rfl)
          · exact ⟨_, Or.inl rfl, rfl⟩
          · exact ⟨_, Or.inr rfl, rfl⟩
      have h6 : P (hashSet 64 g) ↔ (codes p (hashSet 64 g)).card ≠ 2 := by
        constructor
        · intro hP h; exact hP ⟨y, h3, by rw [h4, h]; rfl⟩
        · rintro h ⟨y', k1, k2⟩
          rw [h3] at k1
          cases k1
          rw [h4] at k2
          exact h (by exact_mod_cast k2)
      rw [h6, h5]
      constructor
      · intro h; by_contra hne; exact h (Finset.card_pair hne)
      · intro h; rw [h]; simp
    exact key _ hn
  have e2 : fraction (fun h : Fin N → Fin (2 ^ 64) => ¬ ∃ y : ℚ,
        later (Plus.api cfg ln c) ords (ops.map (withHashes h)) [.count i] = .ok [.count (fin y)] ∧
        ⌊y⌋ = 2) = fraction (fun h : Fin N → Fin (2 ^ 64) => P (V.image fun v => (h v : Nat) % 2 ^ 64)) := by
    refine fraction_congr fun h => ?_
    have hc : (contents 64 18 (ops.map (withHashes h)))[i]? = some (meaning 64 h (p, V)) := by
      rw [contents_meaning, List.getElem?_map, hV]; rfl
    rw [plus_count_val (hs h) hc]
    simp only [meaning, P, Except.ok.injEq, List.cons.injEq, Out.count.injEq, and_true]
  rw [e2, e, fraction_same_code (by omega)]
  have : (2 : ℝ) ^ 128 = 2 ^ 50 * 4 ^ 39 := by norm_num
  rw [this]
  have h4 : (4 : ℝ) ^ 39 ≠ 0 := by positivity
  have h5 : (2 : ℝ) ^ 50 ≠ 0 := by positivity
  generalize (4 : ℝ) ^ 39 = A at *
  generalize (2 : ℝ) ^ 50 = B at *
  generalize (2 : ℝ) ^ 25 = C at *
  field_simp

/-- **C67** for `HyperLogLogPF`: if sketch `i` of precision `p` received exactly `n` distinct values,
`n (n + 1) < 2^p`, then `count`, rounded down, is `n` with probability exactly
`(1 - 1/2^p)(1 - 2/2^p) ⋯ (1 - (n-1)/2^p)`: the probability that no two values share a register. -/
theorem C67_pf_exact (hln : LnSpec ln) (c : Serde.Codec (Fin N))
    (hs : ∀ h, Supported cfg c (ops.map (withHashes h)))
    (hV : (received 16 ops)[i]? = some (p, V)) (hn : V.card * (V.card + 1) < 2 ^ p) :
    fraction (fun h : Fin N → Fin (2 ^ 64) => ∃ y : ℚ,
        later (PF.api cfg ln c) ords (ops.map (withHashes h)) [.count i] = .ok [.count (fin y)] ∧
        ⌊y⌋ = V.card) = ∏ k ∈ Finset.range V.card, (1 - (k : ℝ) / 2 ^ p) := by
  have hp2 : p ≤ 16 := received_le hV
  have hp1 : 4 ≤ p := received_ge hV
  let P : Finset Nat → Prop := fun S => ∃ y : ℚ, pfCount ln p S = fin y ∧ ⌊y⌋ = V.card
  have e2 : fraction (fun h : Fin N → Fin (2 ^ 64) => ∃ y : ℚ,
        later (PF.api cfg ln c) ords (ops.map (withHashes h)) [.count i] = .ok [.count (fin y)] ∧
        ⌊y⌋ = V.card) =
      fraction (fun h : Fin N → Fin (2 ^ 64) => P (V.image fun v => (h v : Nat) % 2 ^ 32)) := by
    refine fraction_congr fun h => ?_
    have hc : (contents 32 16 (ops.map (withHashes h)))[i]? = some (meaning 32 h (p, V)) := by
      rw [contents_meaning, List.getElem?_map, hV]; rfl
    rw [pf_count_val (hs h) hc]
    simp only [meaning, P, Except.ok.injEq, List.cons.injEq, Out.count.injEq, and_true]
  rw [e2, fraction_restrict, ← fraction_injective (w := 32) (by omega) (by omega)]
  refine fraction_congr fun g => ?_
  have h1 := occupied (w := 32) (p := p) (by omega) g
  have h2 := zeros_ge (w := 32) (p := p) g
  generalize (Finset.univ.image fun i => bucket 32 p ((g i : Nat) % 2 ^ 32)).card = k at h1
  have hk : k ≤ V.card := by omega
  obtain ⟨y, h3, h4⟩ := pf_small hln hp1 hp2 h1
    (lt_of_le_of_lt (Nat.mul_le_mul hk (Nat.succ_le_succ hk)) hn)
  constructor
  · rintro ⟨y', k1, k2⟩
    rw [h3] at k1
    cases k1
    rw [h4] at k2
    have : k = V.card := by exact_mod_cast k2
    omega
  · intro h
    exact ⟨y, h3, by rw [h4]; exact_mod_cast (by omega : k = V.card)⟩

/-! ## The program of the documentation -/

/-- README.md:42-46: a new sketch of precision 16 and two insertions (line 48 then calls `count`). -/
def readme : List (Op (Fin 2)) := [.new 16 (fun _ => 0), .insert .insert 0 0, .insert .insert 0 1]

theorem received_readme (maxP : Nat) (h : 16 ≤ maxP) : (received maxP readme)[0]? = some (16, Finset.univ) := by
  simp [readme, received, receive, h]
  decide

theorem readme_reload (h : Fin 2 → Fin (2 ^ 64)) (i : Nat) : Op.reload i ∉ readme.map (withHashes h) := by
  simp [readme, withHashes]

/-- The example with `HyperLogLogPlus` fails with probability between one in 33.6 and one in 33.5 millions. -/
example (hln : LnSpec ln) : ∃ x : ℝ, 1 / 33600000 < x ∧ x < 1 / 33500000 ∧
    fraction (fun h : Fin 2 → Fin (2 ^ 64) => ¬ ∃ y : ℚ,
      later (Plus.api Cfg.debug64 ln (noCodec _)) ords (readme.map (withHashes h)) [.count 0] =
        .ok [.count (fin y)] ∧ ⌊y⌋ = 2) = x :=
  ⟨_, by norm_num, by norm_num, C67_plus_two hln (noCodec _) (fun h => supported64 rfl _ (readme_reload h))
    (received_readme 18 (by norm_num)) (by simp)⟩

/-- The same program with `HyperLogLogPF` fails with probability `1/65536`. -/
example (hln : LnSpec ln) :
    fraction (fun h : Fin 2 → Fin (2 ^ 64) => ∃ y : ℚ,
      later (PF.api Cfg.debug64 ln (noCodec _)) ords (readme.map (withHashes h)) [.count 0] =
        .ok [.count (fin y)] ∧ ⌊y⌋ = (2 : ℕ)) = 1 - 1 / 65536 := by
  have h := C67_pf_exact (ords := ords) (cfg := Cfg.debug64) hln (noCodec _)
    (fun h => supported64 rfl _ (readme_reload h)) (received_readme 16 le_rfl) (by simp)
  rw [Finset.card_univ, Fintype.card_fin] at h
  rw [h]
  norm_num [Finset.prod_range_succ]

end HLL
