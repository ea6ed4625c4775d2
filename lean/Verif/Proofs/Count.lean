import Verif.Proofs.PlusRep
import Verif.Proofs.PFRep
import Verif.Proofs.Bias
import Verif.Proofs.FloatOps
import Verif.SpecCount
import Mathlib.Data.List.Count

/-! # `count` computes the specified estimates -/

namespace HLL
open F64 Spec

theorem ofNat_two_pow {k : ℕ} (hk : k ≤ 1000) : ofNat (2 ^ k) = fin (2 ^ k) := by
  have h : rnd ((2 : ℚ) ^ k) = 2 ^ k := by
    have := rnd_two_zpow (K := ℚ) (e := k) (by omega)
    simpa using this
  unfold ofNat
  push_cast
  rw [round_eq_fin _ (Or.inl rfl), h]
  rw [h, abs_of_pos (by positivity)]
  exact pow_lt_pow_right₀ (by norm_num) (by omega)

theorem one_eq : Common.one = fin 1 := by
  unfold Common.one
  rw [ofNat_eq (by norm_num)]; norm_num

theorem shl_one_toNat {k : ℕ} (hk : k < 64) : ((1#64 <<< k : U64)).toNat = 2 ^ k := by
  rw [BitVec.toNat_shiftLeft, Nat.shiftLeft_eq, BitVec.toNat_ofNat, Nat.one_mod, Nat.one_mul]
  exact Nat.mod_eq_of_lt (Nat.pow_lt_pow_right (by norm_num) hk)

theorem invPow_ok (cfg : Cfg) {v : U32} (hv : v.toNat < 64) :
    Common.invPow cfg v = .ok (fin (1 / 2 ^ v.toNat)) := by
  rw [Common.invPow, shl_ok cfg _ hv, ok_bind, shl_one_toNat hv, one_eq, ofNat_two_pow (by omega),
    inv_pow_eq (by omega)]
  rfl

theorem RAW_ok (cfg : Cfg) {k : ℕ} (hk : k < if cfg.std then 64 else 32) :
    index (Common.RAW cfg) k = .ok (fin (1 / 2 ^ k)) := by
  have hl : k < (Common.RAW cfg).length := by simpa [Common.RAW] using hk
  replace hk : k < 64 := by split at hk <;> omega
  rw [index_ok hl]
  congr 1
  simp only [Common.RAW, List.getElem_map, List.getElem_range]
  rw [shl_one_toNat hk, one_eq, ofNat_two_pow (by omega), inv_pow_eq (by omega)]

theorem mapM_ok {α β : Type} {f : α → R β} {g : α → β} : ∀ {L : List α}, (∀ x ∈ L, f x = .ok (g x)) →
    L.mapM f = .ok (L.map g)
  | [], _ => by simp
  | x :: xs, h => by
    rw [List.mapM_cons, h x (by simp), ok_bind, mapM_ok (fun y hy => h y (by simp [hy]))]
    rfl

/-- The summands do not depend on the `const-loop` feature. -/
theorem terms_ok (cfg : Cfg) {L : List U32} (hL : ∀ v ∈ L, v.toNat < if cfg.std then 64 else 32) :
    Common.terms cfg L = .ok ((L.map BitVec.toNat).map fun r => fin (1 / 2 ^ r)) := by
  rw [Common.terms, List.map_map]
  split
  · exact mapM_ok (fun v hv => RAW_ok cfg (hL v hv))
  · refine mapM_ok (fun v hv => invPow_ok cfg ?_)
    have := hL v hv
    split at this <;> omega

theorem add_negZero (x : ℚ) : add negZero (fin x) = add (fin 0) (fin x) := rfl

/-- The start value of the sum does not matter, unless nothing is added. -/
theorem sumF_ok (cfg : Cfg) {L : List Nat} (hL : L ≠ []) :
    Common.sumF cfg (L.map fun r => fin (1 / 2 ^ r)) = harmonic L := by
  obtain ⟨r, L, rfl⟩ := List.exists_cons_of_ne_nil hL
  have h : ∀ x : ℚ, add (if cfg.sumFromNegZero then negZero else fin 0) (fin x) =
      add (fin ((0 : ℕ) : ℚ)) (fin x) := by
    intro x
    rw [Nat.cast_zero, ← add_negZero]
    split
    · rfl
    · rw [add_negZero]
  simp only [Common.sumF, harmonic, num, List.map_cons, List.foldl_cons, h]

theorem alpha_eq {p : Nat} (hp1 : 4 ≤ p) (hp2 : p ≤ 18) : Common.alpha (2 ^ p) = Spec.alpha p := by
  have h : 7 ≤ p → Common.alpha (2 ^ p) =
      div (ofDec 7213 4) (add Common.one (div (ofDec 1079 3) (ofNat (2 ^ p)))) := by
    intro h7
    interval_cases p <;> rfl
  by_cases h4 : p = 4
  · subst h4; rfl
  by_cases h5 : p = 5
  · subst h5; rfl
  by_cases h6 : p = 6
  · subst h6; rfl
  rw [h (by omega), one_eq, ofNat_two_pow (by omega)]
  unfold Spec.alpha Spec.num
  rw [if_neg h4, if_neg h5, if_neg h6]
  push_cast; rfl

theorem estimateRawPlus_ok (cfg : Cfg) {p : Nat} (hp1 : 4 ≤ p) (hp2 : p ≤ 18)
    (hcfg : 2 * p < cfg.usizeBits) {L : List U32} (hL : ∀ v ∈ L, v.toNat < if cfg.std then 64 else 32)
    (hne : L ≠ []) :
    Common.estimateRawPlus cfg L (2 ^ p) = .ok (rawEstimate p (L.map BitVec.toNat)) := by
  have h36 : 2 ^ p * 2 ^ p < 2 ^ cfg.usizeBits := by
    rw [← pow_add]; exact Nat.pow_lt_pow_right (by norm_num) (by omega)
  rw [Common.estimateRawPlus, terms_ok cfg hL, ok_bind, Common.finishRaw,
    mulUsize_ok cfg h36, ok_bind, alpha_eq hp1 hp2, sumF_ok cfg (by simpa using hne)]
  have h2 : ofNat (2 ^ p * 2 ^ p) = num (2 ^ p * 2 ^ p) := by
    apply ofNat_eq
    rw [← pow_add]; exact Nat.pow_le_pow_right (by norm_num) (by omega)
  rw [h2]
  rfl

theorem linearCount_eq (ln : F64 → F64) {m V : Nat} (hm : m ≤ 2 ^ 53) (hV : V ≤ 2 ^ 53) :
    Common.linearCount ln m V = linear ln m V := by
  unfold Common.linearCount linear num
  rw [ofNat_eq hm, ofNat_eq hV]

theorem count_zero_map (f : Nat → Nat) (n : Nat) :
    ((List.range n).map f).count 0 = ((Finset.range n).filter fun j => f j = 0).card := by
  induction n with
  | zero => simp
  | succ n ih =>
    rw [List.range_succ, List.map_append, List.count_append, ih, Finset.range_add_one,
      Finset.filter_insert]
    by_cases h : f n = 0
    · rw [if_pos h, Finset.card_insert_of_notMem (by simp)]; simp [h]
    · rw [if_neg h]; simp [h]

theorem exact_nat_mul {a b : ℕ} (h : a * b ≤ 2 ^ 53) : mul (fin a) (fin b) = fin ((a * b : ℕ) : ℚ) := by
  have h1 : ((a : ℚ) * b) = ((a * b : ℕ) : ℚ) := by push_cast; rfl
  rw [mul_fin_nonneg (by positivity) (by positivity), h1, rnd_natCast h]
  rw [h1]
  calc ((a * b : ℕ) : ℚ) ≤ 2 ^ 53 := by exact_mod_cast h
    _ ≤ 2 ^ 1023 := pow_le_pow_right₀ (by norm_num) (by norm_num)

namespace Registers

theorem Lanes.iter_lt {r : Registers} {S n : Nat} {f : Nat → Nat} (hS : GoodSize S) (h : Lanes S r n f) :
    ∀ v ∈ r.iter S, v.toNat < 64 := by
  intro v hv
  have hm : v.toNat ∈ (r.iter S).map BitVec.toNat := List.mem_map_of_mem hv
  rw [h.iter_eq hS] at hm
  obtain ⟨j, hj, hjv⟩ := List.mem_map.1 hm
  have := h.lt hS (List.mem_range.1 hj)
  rw [← hjv]
  refine lt_of_lt_of_le this ?_
  rcases hS with rfl | rfl <;> norm_num

theorem Lanes.iter_lt' (cfg : Cfg) {r : Registers} {S n : Nat} {f : Nat → Nat} (hS : GoodSize S)
    (hstd : S = 5 ∨ cfg.std = true) (h : Lanes S r n f) :
    ∀ v ∈ r.iter S, v.toNat < if cfg.std then 64 else 32 := by
  intro v hv
  have hm : v.toNat ∈ (r.iter S).map BitVec.toNat := List.mem_map_of_mem hv
  rw [h.iter_eq hS] at hm
  obtain ⟨j, hj, hjv⟩ := List.mem_map.1 hm
  have := h.lt hS (List.mem_range.1 hj)
  rw [← hjv]
  refine lt_of_lt_of_le this ?_
  rcases hstd with rfl | h'
  · split <;> norm_num
  · rw [if_pos h']
    rcases hS with rfl | rfl <;> norm_num

theorem Lanes.iter_ne {r : Registers} {S p : Nat} {f : Nat → Nat} (hS : GoodSize S)
    (h : Lanes S r (2 ^ p) f) : r.iter S ≠ [] := by
  intro h0
  have := congrArg List.length (h.iter_eq hS)
  rw [h0] at this
  have h2 : 0 < 2 ^ p := by positivity
  simp at this
  omega

/-- The raw estimate of registers of 5 bits, or of 6 bits with `std`. -/
theorem Lanes.estimateRawPlus (cfg : Cfg) {S p : Nat} (hp1 : 4 ≤ p) (hp2 : p ≤ 18)
    (hcfg : 2 * p < cfg.usizeBits) {r : Registers} {f : Nat → Nat} (hS : GoodSize S)
    (hstd : S = 5 ∨ cfg.std = true) (h : Lanes S r (2 ^ p) f) :
    Common.estimateRawPlus cfg (r.iter S) (2 ^ p) =
      .ok (rawEstimate p ((List.range (2 ^ p)).map f)) := by
  rw [estimateRawPlus_ok cfg hp1 hp2 hcfg (h.iter_lt' cfg hS hstd) (h.iter_ne hS), h.iter_eq hS]

theorem Lanes.zeros_count {r : Registers} {S n : Nat} {f : Nat → Nat} (h : Lanes S r n f) :
    r.zeros = ((List.range n).map f).count 0 := by
  rw [h.zeros_eq, count_zero_map]

theorem Lanes.zeros_le {r : Registers} {S n : Nat} {f : Nat → Nat} (h : Lanes S r n f) : r.zeros ≤ n := by
  rw [h.zeros_eq]
  exact le_trans (Finset.card_filter_le _ _) (by simp)

end Registers

namespace Plus
variable {I : Type}

theorem threshold_ok {p : Nat} (hp1 : 4 ≤ p) (hp2 : p ≤ 18) :
    Plus.threshold p = .ok (num (Spec.threshold p)) := by
  have h : ∀ n : Nat, n ≤ 2 ^ 53 → (pure (ofNat n) : R F64) = .ok (num n) := by
    intro n hn
    rw [ofNat_eq hn]; rfl
  interval_cases p <;> exact h _ (by norm_num)

theorem correctedRaw_ok (cfg : Cfg) (hcfg : 32 ≤ cfg.usizeBits) {p : Nat} (hp1 : 4 ≤ p) (hp2 : p ≤ 18)
    (hcfg2 : 2 * p < cfg.usizeBits) {r : Registers} {f : Nat → Nat}
    (hr : Registers.Lanes 6 r (2 ^ p) f) :
    correctedRaw cfg p (2 ^ p) r = .ok (
      let raw := rawEstimate p ((List.range (2 ^ p)).map f)
      if le raw (num (5 * 2 ^ p)) = true then sub raw (biasOf cfg.search p raw) else raw) := by
  have hS : Registers.GoodSize 6 := Or.inr rfl
  have h18 : 2 ^ p ≤ 2 ^ 18 := Nat.pow_le_pow_right (by norm_num) hp2
  rw [correctedRaw, show SIZE = 6 from rfl,
    hr.estimateRawPlus { cfg with std := true } hp1 hp2 hcfg2 hS (Or.inr rfl), ok_bind]
  have h5 : mul (ofNat 5) (ofNat (2 ^ p)) = num (5 * 2 ^ p) := by
    rw [ofNat_eq (by norm_num), ofNat_eq (by omega), exact_nat_mul (by omega)]; rfl
  rw [h5]
  simp only
  by_cases hle : le (rawEstimate p ((List.range (2 ^ p)).map f)) (num (5 * 2 ^ p)) = true
  · rw [if_pos hle, if_pos hle, estimateBias_eq cfg hcfg hp1 hp2 (ne_nan_of_le hle).1]
    rfl
  · rw [if_neg hle, if_neg hle]; rfl

theorem countNormal_ok (cfg : Cfg) (hcfg : 32 ≤ cfg.usizeBits) (ln : F64 → F64) {p : Nat}
    (hp1 : 4 ≤ p) (hp2 : p ≤ 18) (hcfg2 : 2 * p < cfg.usizeBits) {r : Registers} {f : Nat → Nat}
    (hr : Registers.Lanes 6 r (2 ^ p) f) :
    countNormal cfg ln p (2 ^ p) r =
      .ok (plusDense ln (biasOf cfg.search p) p ((List.range (2 ^ p)).map f)) := by
  have h18 : 2 ^ p ≤ 2 ^ 18 := Nat.pow_le_pow_right (by norm_num) hp2
  have hz := hr.zeros_le
  rw [countNormal, correctedRaw_ok cfg hcfg hp1 hp2 hcfg2 hr, threshold_ok hp1 hp2, plusDense,
    linearCount_eq ln (by omega) (by omega), hr.zeros_count]
  simp only [ok_bind]
  by_cases h0 : ((List.range (2 ^ p)).map f).count 0 = 0
  · rw [if_neg (not_not.2 h0)]
    congr 1
    exact (if_neg (fun h => h.1 h0)).symm
  · rw [if_pos h0]
    by_cases hl : le (linear ln (2 ^ p) (((List.range (2 ^ p)).map f).count 0))
        (num (Spec.threshold p)) = true
    · rw [if_pos hl, if_pos ⟨h0, hl⟩]; rfl
    · rw [if_neg hl]
      congr 1
      exact (if_neg (fun h => hl h.2)).symm

/-- Number of codes held by a flushed sparse sketch. -/
theorem SparseRep.count_eq {p : Nat} {s : Plus I} {S : Finset Nat} {L : List U32}
    (h : SparseRep p s S L) (ht : s.tmpset = []) : s.sparse.count = (codes p S).card := by
  rw [h.enc.count_eq]
  have := eq_sort_of_pairwise h.sorted.map (C := codes p S) (by intro n; rw [h.mem, ht]; simp)
  have h2 := congrArg List.length this
  rw [List.length_map, Finset.length_sort] at h2
  exact h2

/-- `count` returns the specified estimate and leaves a flushed sketch of the same set. -/
theorem count_ok (cfg : Cfg) (hcfg : 32 ≤ cfg.usizeBits) (ln : F64 → F64) (ord : IterOrder) {p : Nat}
    {s : Plus I} {S : Finset Nat} (hcfg2 : ¬ fitsSparse p S → 2 * p < cfg.usizeBits)
    (h : Rep p s S) :
    ∃ s', count cfg ln ord s = .ok (s', plusCount ln (biasOf cfg.search) p S) ∧ Flushed p s' S ∧
      s'.builder = s.builder := by
  obtain ⟨s', h1, h2, h3⟩ := flush_ok cfg hcfg ord h
  refine ⟨s', ?_, h2, h3⟩
  obtain ⟨hb, h2⟩ := h2
  obtain ⟨hb1, hb2⟩ := pow_bounds cfg hcfg hb.hp2
  have hun : count cfg ln ord s = flush cfg ord s >>= fun s' => (match s'.registers with
      | some registers => do
        let c ← countNormal cfg ln s'.precision s'.counts.1 registers
        pure (s', c)
      | none => do
        let zeros ← subUsize cfg s'.counts.2.1 s'.sparse.count
        pure (s', Common.linearCount ln s'.counts.2.1 zeros)) := rfl
  rw [hun, h1, ok_bind, plusCount]
  rcases h2 with ⟨L, hs, ht, hf⟩ | ⟨r, hd⟩
  · have hc := hs.count_eq ht
    have hcard := card_le_encSize (codes p S)
    have hcap := capacity_le hb.hp2
    have hf' := hf
    unfold fitsSparse at hf'
    rw [hs.regs, hb.counts, hc, if_pos hf]
    simp only
    rw [subUsize_ok cfg (by omega) (by omega), ok_bind, linearCount_eq ln (by norm_num) (by omega)]
    rfl
  · rw [hd.regs, hb.counts, hb.prec, if_neg hd.big]
    simp only
    rw [countNormal_ok cfg hcfg ln hb.hp1 hb.hp2 (hcfg2 hd.big) hd.rep.toLanes]
    rfl

end Plus

namespace PF
variable {I : Type}

theorem estimate_ok (cfg : Cfg) (ln : F64 → F64) {p : Nat}
    (hcfg2 : 2 * p < cfg.usizeBits) {s : PF I} {S : Finset Nat} (h : Rep p s S) :
    estimate cfg ln s = .ok (pfCount ln p S) := by
  have hp1 := h.hp1
  have hp2 := h.hp2
  have hS : Registers.GoodSize 5 := Or.inl rfl
  have h16 : 2 ^ p ≤ 2 ^ 16 := Nat.pow_le_pow_right (by norm_num) hp2
  have hz := h.rep.zeros_le
  rw [estimate, h.count, show SIZE = 5 from rfl,
    h.rep.estimateRawPlus cfg hp1 (by omega) hcfg2 hS (Or.inl rfl), ok_bind]
  simp only
  rw [shl_ok cfg _ (by norm_num), ok_bind, shl_one_toNat (by norm_num), pfCount, pfDense,
    linearCount_eq ln (by omega) (by omega), h.rep.zeros_count, one_eq]
  have e1 : ofNat (2 ^ 32) = num (2 ^ 32) := ofNat_eq (by norm_num)
  have e2 : ofNat 30 = num 30 := ofNat_eq (by norm_num)
  have e3 : ofNat (2 ^ p) = num (2 ^ p) := ofNat_eq (by omega)
  have e4 : (fin 1 : F64) = num 1 := by unfold num; norm_num
  rw [e1, e2, e3, e4]
  rw [show (List.range (2 ^ p)).map (reg 32 p S) = regs 32 p S from rfl]
  generalize regs 32 p S = M
  simp only [pure_eq_ok]
  split
  · rfl
  · split <;> rfl

end PF
end HLL
