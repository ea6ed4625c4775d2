import Verif.Props.Numeric
import Verif.Proofs.Worst

/-!
# C60: bounds on `count` for every hash function

No assumption is made on the hashes: they may be chosen by an adversary.
-/

namespace HLL
open Spec F64

variable {I : Type} {cfg : Cfg} {ln : F64 → F64} {c : Serde.Codec I}
  {ords : Nat → IterOrder × IterOrder} {ops : List (Op I)} {i : Nat}

/-- Hashes with the same code belong to the same register. -/
theorem buckets_le_codes {p : Nat} (hp : p ≤ 18) (S : Finset Nat) :
    (S.image (bucket 64 p)).card ≤ (codes p S).card := by
  have e : S.image (bucket 64 p) =
      (codes p S).image (fun x => (if x % 2 = 1 then x / 128 else x / 2) / 2 ^ (25 - p)) := by
    rw [codes, Finset.image_image]
    apply Finset.image_congr
    intro h _
    have h2 : h / 2 ^ (64 - p) = h / 2 ^ 39 / 2 ^ (25 - p) := by
      rw [Nat.div_div_eq_div_mul, ← pow_add]
      congr 2; omega
    have h3 := firstOne_le 39 h
    simp only [bucket, Function.comp, h2]
    congr 1
    by_cases hi : h / 2 ^ 39 % 2 ^ (25 - p) = 0
    · have hc : code p h = h / 2 ^ 39 * 128 + firstOne 39 h * 2 + 1 := by simp only [code, if_pos hi]
      rw [if_pos (by omega)]; omega
    · have hc : code p h = h / 2 ^ 39 * 2 := by simp only [code, if_neg hi]
      rw [if_neg (by omega)]; omega
  rw [e]
  exact Finset.card_image_le

/-- **C60.** Whatever the hashes are, `HyperLogLogPlus::count` returns a number between `0.44 k` and
`1.461 · 2^64`, where `k` is the number of registers the hashes belong to.  If the sketch has seen a
value the result is at least 1. -/
theorem C60_plus_bounds (hln : LnSpec ln) (h : Supported cfg c ops) {a : Abs I}
    (ha : (contents 64 18 ops)[i]? = some a) :
    ∃ y : ℚ, later (Plus.api cfg ln c) ords ops [.count i] = .ok [.count (fin y)] ∧
      0.44 * (a.S.image (bucket 64 a.p)).card ≤ y ∧ y ≤ 187 * 2 ^ 57 ∧ (a.S.Nonempty → 1 ≤ y) := by
  obtain ⟨hp1, hp2, hS⟩ := contents_valid 64 18 ops a (mem_of_get ha)
  rw [plus_count_val h ha, plusCount]
  by_cases hf : fitsSparse a.p a.S
  · rw [if_pos hf]
    have hcard := card_le_encSize (codes a.p a.S)
    have hcap := capacity_le hp2
    have hle := buckets_le_codes hp2 a.S
    have hf' := hf
    unfold fitsSparse at hf'
    rcases a.S.eq_empty_or_nonempty with he | hne
    · rw [he] at hle ⊢
      have : (codes a.p ∅).card = 0 := by simp [codes]
      rw [this, Nat.sub_zero, linear_self hln (by norm_num) le_rfl]
      exact ⟨0, rfl, by simp, by norm_num, fun h => absurd h (by simp)⟩
    · have hc : 0 < (codes a.p a.S).card := Finset.card_pos.2 (hne.image _)
      have hn : (codes a.p a.S).card ≤ 2 ^ 18 := by omega
      obtain ⟨y, h1, h2, h3, _⟩ := sparse_bounds hln hc hn
      have hcQ : (1 : ℚ) ≤ (codes a.p a.S).card := by exact_mod_cast hc
      have hnQ : ((codes a.p a.S).card : ℚ) ≤ 262144 := by
        have : (codes a.p a.S).card ≤ 262144 := hn
        exact_mod_cast this
      have hleQ : ((a.S.image (bucket 64 a.p)).card : ℚ) ≤ (codes a.p a.S).card := by
        exact_mod_cast hle
      have h0 : (0 : ℚ) ≤ (a.S.image (bucket 64 a.p)).card := by positivity
      rw [h1]
      refine ⟨y, rfl, by norm_num; linarith, ?_, fun _ => by linarith⟩
      generalize ((codes a.p a.S).card : ℚ) = n at *
      refine h3.trans ?_
      rw [div_le_iff₀ (by norm_num; linarith)]
      norm_num
      linarith
  · rw [if_neg hf]
    have hM : Regs a.p (regs 64 a.p a.S) := regs_regs _ (by omega)
    obtain ⟨y, h1, h2, h3, h4⟩ := plusDense_bounds hln (v := cfg.search) hp1 hp2 hM (by
      intro r hr
      obtain ⟨j, _, rfl⟩ := List.mem_map.1 hr
      have := reg_le 64 a.p a.S j
      omega)
    have hz := zeros_add_buckets (w := 64) (p := a.p) (by omega) hS
    rw [h1]
    refine ⟨y, rfl, ?_, h3, fun hne => h4 ?_⟩
    · rw [count_zero_regs] at h2
      have hz' : (zeros 64 a.p a.S : ℚ) + (a.S.image (bucket 64 a.p)).card = 2 ^ a.p := by
        exact_mod_cast hz
      refine le_trans (le_of_eq ?_) h2
      rw [← hz']; ring
    · rw [count_zero_regs]
      exact zeros_lt (by omega) hS hne

/-- **C60.** Whatever the hashes are, `HyperLogLogPF::count` returns infinity, NaN, or a number between
`k` and `37 · 2^32`, where `k` is the number of registers the hashes belong to. -/
theorem C60_pf_bounds (hln : LnSpec ln) (h : Supported cfg c ops) {a : Abs I}
    (ha : (contents 32 16 ops)[i]? = some a) :
    ∃ x : F64, later (PF.api cfg ln c) ords ops [.count i] = .ok [.count x] ∧
      (x = inf false ∨ x = nan ∨ ∃ y : ℚ, x = fin y ∧
        ((a.S.image (bucket 32 a.p)).card : ℚ) ≤ y ∧ y ≤ 37 * 2 ^ 32) := by
  obtain ⟨hp1, hp2, hS⟩ := contents_valid 32 16 ops a (mem_of_get ha)
  refine ⟨_, pf_count_val h ha, ?_⟩
  obtain ⟨_, h2, h3⟩ := pfDense_value hln hp1 hp2 (regs_regs (w := 32) (p := a.p) a.S (by omega))
  rcases lt_trichotomy (rawQ a.p (hsum 0 (regs 32 a.p a.S))) (2 ^ 32) with hlt | he | hgt
  · right; right
    obtain ⟨y, k1, k2, k3⟩ := pfDense_bounds hln hp1 hp2 hlt
    have hz := zeros_add_buckets (w := 32) (p := a.p) (by omega) hS
    have hz' : (zeros 32 a.p a.S : ℚ) + (a.S.image (bucket 32 a.p)).card = 2 ^ a.p := by
      exact_mod_cast hz
    exact ⟨y, k1, by linarith, k3⟩
  · exact Or.inl (h2 he)
  · exact Or.inr (Or.inl (h3 hgt))

/-- Instances: in `demoSparse` the hashes belong to two registers of a `HyperLogLogPlus` and (by their
lower halves) to one register of a `HyperLogLogPF`. -/
example : ∃ a, (contents 64 18 demoSparse)[0]? = some a ∧ a.S.Nonempty ∧
    (a.S.image (bucket 64 a.p)).card = 2 := ⟨_, rfl, by decide, by decide +kernel⟩

example : ∃ a, (contents 32 16 demoSparse)[0]? = some a ∧ a.S.Nonempty ∧
    (a.S.image (bucket 32 a.p)).card = 1 := ⟨_, rfl, by decide, by decide +kernel⟩

end HLL
