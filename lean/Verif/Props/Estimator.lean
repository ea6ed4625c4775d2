import Verif.Props.Numeric

/-! # Properties of the parts of the estimators: C29, C30, C31, C34, C39 -/

namespace HLL
open Spec F64

variable {I : Type} {cfg : Cfg} {ln : F64 → F64} {c : Serde.Codec I}
  {ords : Nat → IterOrder × IterOrder} {ops more : List (Op I)} {i : Nat}

/-! ## C29, C30: bias tables -/

/-- **C29.** For every precision and every finite raw estimate the lookup returns (no panic).  The
result `β` is the first bias if the raw estimate is not above the first table point, the last bias
if it is not below the last point, or else (up to `2^-29` of rounding) the bias interpolated at the
fraction `t ∈ [0, 1]` between two adjacent points `k`, `k + 1` around the raw estimate, whose
distance is at least `1/10000` (no division by zero). -/
theorem C29_bias_lookup {p : Nat} (hp1 : 4 ≤ p) (hp2 : p ≤ 18) (hcfg : 32 ≤ cfg.usizeBits)
    {raw : ℚ} (hraw : rnd raw = raw) :
    ∃ (b : F64) (β : ℚ), Plus.estimateBias cfg p (fin raw) = .ok b ∧ b.val = β ∧ b ≠ nan ∧
      (∀ z, b ≠ inf z) ∧
      let E := fun k => ((Constants.RAW_ESTIMATE_DATA.getD (p - 4) []).getD k nan).val
      let B := fun k => ((Constants.BIAS_DATA.getD (p - 4) []).getD k nan).val
      let n := (Constants.RAW_ESTIMATE_DATA.getD (p - 4) []).length
      (raw ≤ E 0 ∧ β = B 0) ∨ (E (n - 1) ≤ raw ∧ β = B (n - 1)) ∨
      ∃ (k : Nat) (t : ℚ), k + 1 < n ∧ 0 ≤ t ∧ t ≤ 1 ∧ 1 / 10000 ≤ |E (k + 1) - E k| ∧
        raw = E k + t * (E (k + 1) - E k) ∧ |β - (B k + t * (B (k + 1) - B k))| ≤ 1 / 2 ^ 29 := by
  obtain ⟨β, h1, h2⟩ := Plus.biasOf_cases cfg.search hp1 hp2 hraw
  refine ⟨_, β, Plus.estimateBias_eq cfg hcfg hp1 hp2 (by simp), h1.val_eq, h1.ne_nan, ?_, ?_⟩
  · intro z hz
    rcases h1 with h | ⟨h, _⟩ <;> rw [h] at hz <;> cases hz
  · cases h2 with
    | low a1 a2 => exact Or.inl ⟨a1, a2⟩
    | high a1 a2 => exact Or.inr (Or.inl ⟨a1, a2⟩)
    | mid k t a1 a2 a3 a4 _ a5 =>
      refine Or.inr (Or.inr ⟨k, t, a1, a2, a3, (Plus.neighbours hp1 hp2 a1).1, ?_, a5⟩)
      show raw = Plus.rawV p k + t * (Plus.rawV p (k + 1) - Plus.rawV p k)
      linarith

/-- The three cases occur, for instance at precision 4: below, between and above the table points. -/
example : (rnd (10 : ℚ) = 10 ∧ rnd (30 : ℚ) = 30 ∧ rnd (100 : ℚ) = 100) ∧
    (10 < ((Constants.RAW_ESTIMATE_DATA.getD 0 []).getD 0 nan).val ∧
      ((Constants.RAW_ESTIMATE_DATA.getD 0 []).getD 0 nan).val < 30 ∧
      30 < ((Constants.RAW_ESTIMATE_DATA.getD 0 []).getD 78 nan).val ∧
      ((Constants.RAW_ESTIMATE_DATA.getD 0 []).getD 78 nan).val < 100) := by
  decide +kernel

/-- **C30, the true part.** For all precisions except 5 and 6 the table of raw estimates is strictly
increasing, as `f64` values.  Missing for the full claim: precisions 5 and 6, for which it is
false (`C30_refuted`). -/
theorem C30_tables_sorted_partial {p : Nat} (hp1 : 4 ≤ p) (hp2 : p ≤ 18) (h5 : p ≠ 5) (h6 : p ≠ 6) :
    let T := Constants.RAW_ESTIMATE_DATA.getD (p - 4) []
    ∀ i j, i < j → j < T.length → ∃ x y : ℚ, T.getD i nan = fin x ∧ T.getD j nan = fin y ∧ x < y := by
  intro T i j hij hj
  have hT : T = Plus.rawTable p := rfl
  rw [hT] at hj ⊢
  refine ⟨_, _, (Plus.facts hp1 hp2 (by omega)).raw_eq, (Plus.facts hp1 hp2 hj).raw_eq, ?_⟩
  induction j with
  | zero => omega
  | succ j ih =>
    have hs := (Plus.neighbours hp1 hp2 hj).2.2 h5 h6
    rcases Nat.lt_or_ge i j with h | h
    · exact lt_trans (ih h (by omega)) hs
    · have : i = j := by omega
      rw [this]; exact hs

/-- **C30 is false as stated:** the tables for precisions 5 and 6 each have two neighbouring points
in the wrong order. -/
theorem C30_refuted :
    let E := fun p k => ((Constants.RAW_ESTIMATE_DATA.getD (p - 4) []).getD k nan).val
    E 5 128 < E 5 127 ∧ E 5 131 < E 5 130 ∧ E 6 149 < E 6 148 ∧ E 6 168 < E 6 167 := by
  decide +kernel

/-! ## C31: the raw estimate -/

/-- **C31.** The raw estimate of a dense `HyperLogLogPlus`, as computed in `f64`, does not
decrease when further calls are made. -/
theorem C31_plus_raw_monotone (h : Supported cfg c (ops ++ more)) {s s' : Plus I} {a a' : Abs I}
    (hr : ReachPlus cfg ln c ords ops i s a) (hr' : ReachPlus cfg ln c ords (ops ++ more) i s' a')
    {r r' : Registers} (hd : s.registers = some r) (hd' : s'.registers = some r') :
    ∃ x x' : ℚ, Common.estimateRawPlus { cfg with std := true } (r.iter 6) s.counts.1 = .ok (fin x) ∧
      Common.estimateRawPlus { cfg with std := true } (r'.iter 6) s'.counts.1 = .ok (fin x') ∧ x ≤ x' := by
  have h0 : Supported cfg c ops := h.of_subset (fun p b hp => by simp [hp])
    (fun i hi => ⟨i, by simp [hi]⟩)
  obtain ⟨⟨hb, h1⟩, _, hc⟩ := hr.means h0
  obtain ⟨⟨hb', h1'⟩, _, hc'⟩ := hr'.means h
  obtain ⟨b, g1, g2, g3, g4⟩ := contentsFrom_mono 64 18 more (contents 64 18 ops)
    (show (contents 64 18 ops)[i]? = some a from by obtain ⟨_, _, _, _, h⟩ := hr; exact h)
  have hb2 : (contents 64 18 (ops ++ more))[i]? = some a' := by obtain ⟨_, _, _, _, h⟩ := hr'; exact h
  rw [contents_append] at hb2
  rw [g1] at hb2
  cases hb2
  have key : ∀ {s : Plus I} {a : Abs I} {r : Registers}, Plus.Rep a.p s a.S → s.registers = some r →
      2 * a.p < cfg.usizeBits →
      Common.estimateRawPlus { cfg with std := true } (r.iter 6) s.counts.1 = .ok (fin (rawQ a.p (hsum 0 (regs 64 a.p a.S)))) := by
    intro s a r ⟨hb, h⟩ hd hc
    rcases h with ⟨L, h, _⟩ | ⟨r', h⟩
    · rw [h.regs] at hd; cases hd
    · rw [h.regs] at hd
      cases hd
      rw [hb.counts, h.rep.estimateRawPlus { cfg with std := true } hb.hp1 hb.hp2 hc
        (Or.inr rfl) (Or.inr rfl)]
      have hM : Regs a.p (regs 64 a.p a.S) := regs_regs _ (by have := hb.hp1; omega)
      rw [← hM.raw_eq hb.hp1 hb.hp2]; rfl
  refine ⟨_, _, key ⟨hb, h1⟩ hd hc, key ⟨hb', h1'⟩ hd' hc', ?_⟩
  have hp : a'.p = a.p := by first | exact g2 | exact g3
  have hS : a.S ⊆ a'.S := g4
  rw [hp]
  have hM : Regs a.p (regs 64 a.p a'.S) := regs_regs _ (by have := hb.hp1; omega)
  apply rawQ_anti hb.hp1 hb.hp2
  · exact lt_of_lt_of_le (by positivity) (hM.hsum_bounds hb.hp2).2.1
  · exact hsum_mono le_rfl (regs_mono hS)

/-- The hypotheses of C31 (and of C34, C39) can be met: `demoDense`, before and after a further
insertion and a merge with itself, is dense. -/
example : ∃ s a r s' a' r',
    ReachPlus Cfg.debug64 id (noCodec Nat) (fun _ => (IterOrder.id, IterOrder.id)) demoDense 0 s a ∧
    s.registers = some r ∧
    ReachPlus Cfg.debug64 id (noCodec Nat) (fun _ => (IterOrder.id, IterOrder.id))
      (demoDense ++ [.insert .insert 0 12345678, .merge 0 0]) 0 s' a' ∧ s'.registers = some r' := by
  obtain ⟨s, a, r, h1, h2, _⟩ := demoDense_dense
  have h : (match run (Plus.api Cfg.debug64 id (noCodec Nat))
        (fun _ => (IterOrder.id, IterOrder.id)) 0 [] (demoDense ++ [.insert .insert 0 12345678, .merge 0 0]) with
      | .ok (st, _) => (st[0]?.map Plus.isSparse == some false)
      | .error _ => false) = true := by decide +kernel
  obtain ⟨s', st, os, g1, g2, g3⟩ := reachPlus_exists (ln := id) (i := 0)
    (ords := fun _ => (IterOrder.id, IterOrder.id))
    (supported64 (cfg := Cfg.debug64) rfl (noCodec Nat)
      (ops := demoDense ++ [.insert .insert 0 12345678, .merge 0 0])
      (by simp [demoDense, List.range, List.range.loop])) rfl
  rw [g1] at h
  simp only [g2, Option.map_some] at h
  cases hr : s'.registers with
  | none => simp [Plus.isSparse, hr] at h
  | some r' => exact ⟨s, a, r, s', _, r', h1, h2, ⟨st, os, g1, g2, g3⟩, hr⟩

/-- **C31** for `HyperLogLogPF`. -/
theorem C31_pf_raw_monotone (h : Supported cfg c (ops ++ more)) {s s' : PF I} {a a' : Abs I}
    (hr : ReachPF cfg ln c ords ops i s a) (hr' : ReachPF cfg ln c ords (ops ++ more) i s' a') :
    ∃ x x' : ℚ, Common.estimateRawPlus cfg (s.registers.iter 5) s.count = .ok (fin x) ∧
      Common.estimateRawPlus cfg (s'.registers.iter 5) s'.count = .ok (fin x') ∧ x ≤ x' := by
  have h0 : Supported cfg c ops := h.of_subset (fun p b hp => by simp [hp])
    (fun i hi => ⟨i, by simp [hi]⟩)
  obtain ⟨h1, _, hc⟩ := hr.means h0
  obtain ⟨h1', _, hc'⟩ := hr'.means h
  obtain ⟨b, g1, g2, g3, g4⟩ := contentsFrom_mono 32 16 more (contents 32 16 ops)
    (show (contents 32 16 ops)[i]? = some a from by obtain ⟨_, _, _, _, h⟩ := hr; exact h)
  have hb2 : (contents 32 16 (ops ++ more))[i]? = some a' := by obtain ⟨_, _, _, _, h⟩ := hr'; exact h
  rw [contents_append] at hb2
  rw [g1] at hb2
  cases hb2
  have key : ∀ {s : PF I} {a : Abs I}, PF.Rep a.p s a.S → 2 * a.p < cfg.usizeBits →
      Common.estimateRawPlus cfg (s.registers.iter 5) s.count =
        .ok (fin (rawQ a.p (hsum 0 (regs 32 a.p a.S)))) := by
    intro s a h hc
    have hp2 := h.hp2
    rw [h.count, h.rep.estimateRawPlus cfg h.hp1 (by omega) hc (Or.inl rfl) (Or.inl rfl)]
    have hM : Regs a.p (regs 32 a.p a.S) := regs_regs _ (by omega)
    rw [← hM.raw_eq h.hp1 (by omega)]; rfl
  refine ⟨_, _, key h1 hc, key h1' hc', ?_⟩
  have hp : a'.p = a.p := by first | exact g2 | exact g3
  have hS : a.S ⊆ a'.S := g4
  have hp2 := h1.hp2
  rw [hp]
  have hM : Regs a.p (regs 32 a.p a'.S) := regs_regs _ (by omega)
  apply rawQ_anti h1.hp1 (by omega)
  · exact lt_of_lt_of_le (by positivity) (hM.hsum_bounds (by omega)).2.1
  · exact hsum_mono le_rfl (regs_mono hS)

/-! ## C34: the harmonic sum -/

theorem one_add_pow_sub {n : Nat} (hn : n ≤ 2 ^ 18) :
    (1 + 1 / 2 ^ 53 : ℚ) ^ n - 1 ≤ n / 2 ^ 53 * (1 + 1 / 2 ^ 34) := by
  have hn' : (n : ℚ) ≤ 2 ^ 18 := by exact_mod_cast hn
  have hb : 1 - (n : ℚ) / 2 ^ 53 ≤ (1 - 1 / 2 ^ 53) ^ n := by
    have := one_add_mul_le_pow (a := -(1 / 2 ^ 53 : ℚ)) (by norm_num) n
    refine le_trans (le_of_eq ?_) (le_trans this (le_of_eq ?_)) <;> ring
  have hprod : (1 + 1 / 2 ^ 53 : ℚ) ^ n * (1 - 1 / 2 ^ 53) ^ n ≤ 1 := by
    rw [← mul_pow]
    exact pow_le_one₀ (by norm_num) (by norm_num)
  have h0 : (0 : ℚ) < (1 + 1 / 2 ^ 53) ^ n := by positivity
  have h1 : (1 + 1 / 2 ^ 53 : ℚ) ^ n * (1 - n / 2 ^ 53) ≤ 1 :=
    le_trans (mul_le_mul_of_nonneg_left hb h0.le) hprod
  generalize (1 + 1 / 2 ^ 53 : ℚ) ^ n = P at *
  have hx0 : (0 : ℚ) ≤ n / 2 ^ 53 := by positivity
  have hx1 : (n : ℚ) / 2 ^ 53 ≤ 1 / 2 ^ 35 := by
    rw [div_le_iff₀ (by norm_num)]; refine le_trans hn' (by norm_num)
  generalize (n : ℚ) / 2 ^ 53 = x at *
  by_contra hc
  rw [not_le] at hc
  have h2 : 1 + x * (1 + 1 / 2 ^ 34) < P := by linarith
  have h3 : 0 < 1 - x := by norm_num at hx1 ⊢; linarith
  have h4 : (1 + x * (1 + 1 / 2 ^ 34)) * (1 - x) < 1 := lt_of_lt_of_le (mul_lt_mul_of_pos_right h2 h3) h1
  have h5 : x * x ≤ x * (1 / 2 ^ 35) := mul_le_mul_of_nonneg_left hx1 hx0
  nlinarith

/-- **C34.** In a dense `HyperLogLogPlus` of `m = 2^p` registers the computed sum of `2^-register`
differs from the exact sum by a relative error of at most `m·2^-53·(1 + 2^-34)`. -/
theorem C34_plus_sum_accurate {s : Plus I} {a : Abs I} (h : Supported cfg c ops)
    (hr : ReachPlus cfg ln c ords ops i s a) {r : Registers} (hd : s.registers = some r) :
    ∃ ts H, Common.terms { cfg with std := true } (r.iter 6) = .ok ts ∧ Common.sumF cfg ts = fin H ∧
      let exact := ((r.iter 6).map fun v => (1 : ℚ) / 2 ^ v.toNat).sum
      |H - exact| ≤ exact * (2 ^ a.p / 2 ^ 53 * (1 + 1 / 2 ^ 34)) := by
  obtain ⟨⟨hb, h1⟩, _, hc⟩ := hr.means h
  rcases h1 with ⟨L, h1, _⟩ | ⟨r', h1⟩
  · rw [h1.regs] at hd; cases hd
  rw [h1.regs] at hd
  cases hd
  have hp2 := hb.hp2
  have h18 : 2 ^ a.p ≤ 2 ^ 18 := Nat.pow_le_pow_right (by norm_num) hp2
  have hM : Regs a.p ((r.iter 6).map BitVec.toNat) := by
    rw [h1.rep.iter_eq (Or.inr rfl)]
    exact regs_regs (w := 64) a.S (by have := hb.hp1; omega)
  refine ⟨_, hsum 0 ((r.iter 6).map BitVec.toNat), 
    terms_ok { cfg with std := true } (h1.rep.iter_lt' _ (Or.inr rfl) (Or.inr rfl)), ?_, ?_⟩
  · have := (hM.hsum_bounds hp2).1
    rw [← sumF_ok cfg (by simpa using h1.rep.iter_ne (Or.inr rfl))] at this
    exact this
  · have he := hsum_err ((r.iter 6).map BitVec.toNat) 0 le_rfl rnd_zero (fun x hx => by
      have := hM.lt x hx; omega)
    rw [zero_add, hM.length] at he
    have hexp : hexact ((r.iter 6).map BitVec.toNat) = ((r.iter 6).map fun v => (1 : ℚ) / 2 ^ v.toNat).sum := by
      rw [hexact, List.map_map]; rfl
    simp only
    rw [← hexp]
    refine le_trans he (mul_le_mul_of_nonneg_left ?_ (hexact_nonneg _))
    have := one_add_pow_sub h18
    push_cast at this; exact this

/-- **C34.** For `HyperLogLogPF` the sum is exact, in whatever order the registers are added. -/
theorem C34_pf_sum_exact {s : PF I} {a : Abs I} (h : Supported cfg c ops)
    (hr : ReachPF cfg ln c ords ops i s a) {L : List U32} (hL : L.Perm (s.registers.iter 5)) :
    ∃ ts, Common.terms cfg L = .ok ts ∧
      Common.sumF cfg ts = fin ((s.registers.iter 5).map fun v => (1 : ℚ) / 2 ^ v.toNat).sum := by
  obtain ⟨h1, _, hc⟩ := hr.means h
  have hp2 := h1.hp2
  have h16 : 2 ^ a.p ≤ 2 ^ 16 := Nat.pow_le_pow_right (by norm_num) hp2
  have hiter := h1.rep.iter_eq (Or.inl rfl)
  have hperm : (L.map BitVec.toNat).Perm ((s.registers.iter 5).map BitVec.toNat) := hL.map _
  have hlen : (L.map BitVec.toNat).length = 2 ^ a.p := by rw [hperm.length_eq, hiter]; simp
  refine ⟨_, terms_ok cfg (fun v hv => h1.rep.iter_lt' cfg (Or.inl rfl) (Or.inl rfl) v (hL.mem_iff.1 hv)), ?_⟩
  have hx := pf_hsum_exact h1.hp1 hp2 hlen (by
    intro r hr
    rw [hperm.mem_iff, hiter] at hr
    obtain ⟨j, _, rfl⟩ := List.mem_map.1 hr
    exact le_trans (reg_le _ _ _ _) (by omega))
  have hh := (harmonic_eq (M := L.map BitVec.toNat) (by rw [hlen]; omega)).1
  rw [hx] at hh
  have e : hexact (L.map BitVec.toNat) = ((s.registers.iter 5).map fun v => (1 : ℚ) / 2 ^ v.toNat).sum := by
    rw [hexact, (hperm.map _).sum_eq, List.map_map]; rfl
  rw [← e, ← hh]
  refine sumF_ok cfg ?_
  intro h0
  rw [h0, List.length_nil] at hlen
  have : 0 < 2 ^ a.p := by positivity
  omega

/-! ## C39: which estimator is used -/

/-- **C39.** What `count` returns for a dense `HyperLogLogPlus`, with `m = 2^p` registers `M`, `V` of
them zero: linear counting if `V ≠ 0` and its value is at most the threshold of the precision;
otherwise the raw estimate, minus the bias iff it is at most `5m`.  The sketch is not modified. -/
theorem C39_plus_estimator {s : Plus I} {a : Abs I} (h : Supported cfg c ops)
    (hr : ReachPlus cfg ln c ords ops i s a) {r : Registers} (hd : s.registers = some r)
    (ord : IterOrder) :
    let M := (r.iter 6).map BitVec.toNat
    let V := M.count 0
    let raw := rawEstimate a.p M
    ∃ x, Plus.count cfg ln ord s = .ok (s, x) ∧
      ((V ≠ 0 ∧ F64.le (linear ln (2 ^ a.p) V) (fin (threshold a.p)) = true) →
        x = linear ln (2 ^ a.p) V) ∧
      (¬ (V ≠ 0 ∧ F64.le (linear ln (2 ^ a.p) V) (fin (threshold a.p)) = true) →
        (F64.le raw (fin (5 * 2 ^ a.p)) = true →
          ∃ b, Plus.estimateBias cfg a.p raw = .ok b ∧ x = sub raw b) ∧
        (¬ F64.le raw (fin (5 * 2 ^ a.p)) = true → x = raw)) := by
  obtain ⟨⟨hb, h1⟩, _, hc⟩ := hr.means h
  rcases h1 with ⟨L, h1, _⟩ | ⟨r', h1⟩
  · rw [h1.regs] at hd; cases hd
  rw [h1.regs] at hd
  cases hd
  have hiter := h1.rep.iter_eq (Or.inr rfl)
  have hfl : Plus.flush cfg ord s = .ok s := by
    unfold Plus.flush
    simp only [h1.regs]; rfl
  have hcount : Plus.count cfg ln ord s =
      .ok (s, plusDense ln (Plus.biasOf cfg.search a.p) a.p ((r.iter 6).map BitVec.toNat)) := by
    have hun : Plus.count cfg ln ord s = Plus.flush cfg ord s >>= fun s' => (match s'.registers with
        | some registers => do
          let c ← Plus.countNormal cfg ln s'.precision s'.counts.1 registers
          pure (s', c)
        | none => do
          let zeros ← subUsize cfg s'.counts.2.1 s'.sparse.count
          pure (s', Common.linearCount ln s'.counts.2.1 zeros)) := rfl
    rw [hun, hfl, ok_bind]
    simp only [h1.regs]
    rw [hb.counts, hb.prec]
    simp only
    rw [Plus.countNormal_ok cfg h.bits ln hb.hp1 hb.hp2 hc h1.rep.toLanes, hiter]
    rfl
  simp only
  refine ⟨_, hcount, fun h2 => ?_, fun h2 => ⟨fun h3 => ?_, fun h3 => ?_⟩⟩
  · rw [plusDense]; exact if_pos h2
  · have hn : rawEstimate a.p ((r.iter 6).map BitVec.toNat) ≠ nan := (ne_nan_of_le h3).1
    refine ⟨_, Plus.estimateBias_eq cfg h.bits hb.hp1 hb.hp2 hn, ?_⟩
    rw [plusDense]
    refine (if_neg h2).trans (if_pos ?_)
    rw [num]; push_cast; exact h3
  · rw [plusDense]
    refine (if_neg h2).trans (if_neg ?_)
    rw [num]; push_cast; exact h3

/-- **C39** for `HyperLogLogPF`: linear counting iff the raw estimate is at most `2.5m` and `V ≠ 0`;
otherwise the raw estimate, or its large range correction if it exceeds `2^32/30`. -/
theorem C39_pf_estimator {s : PF I} {a : Abs I} (h : Supported cfg c ops)
    (hr : ReachPF cfg ln c ords ops i s a) :
    let M := (s.registers.iter 5).map BitVec.toNat
    let V := M.count 0
    let raw := rawEstimate a.p M
    ∃ x, PF.estimate cfg ln s = .ok x ∧
      ((F64.le raw (fin (5 / 2 * 2 ^ a.p)) = true ∧ V ≠ 0) → x = linear ln (2 ^ a.p) V) ∧
      (¬ (F64.le raw (fin (5 / 2 * 2 ^ a.p)) = true ∧ V ≠ 0) →
        (F64.gt raw (div (fin (2 ^ 32)) (fin 30)) = true →
          x = mul (fin (-2 ^ 32)) (ln (sub (fin 1) (div raw (fin (2 ^ 32)))))) ∧
        (¬ F64.gt raw (div (fin (2 ^ 32)) (fin 30)) = true → x = raw)) := by
  obtain ⟨h1, _, hc⟩ := hr.means h
  have hp2 := h1.hp2
  have e1 : num (2 ^ 32) = fin (2 ^ 32) := by rw [num]; push_cast; rfl
  have e2 : num 30 = fin 30 := by rw [num]; push_cast; rfl
  have e3 : num 1 = fin 1 := by rw [num]; push_cast; rfl
  have hiter := h1.rep.iter_eq (Or.inl rfl)
  refine ⟨_, PF.estimate_ok cfg ln hc h1, ?_⟩
  rw [pfCount, show regs 32 a.p a.S = (s.registers.iter 5).map BitVec.toNat from hiter.symm, pfDense,
    pf_threshold h1.hp1 (by omega), minus_two32, e1, e2, e3]
  refine ⟨fun h2 => if_pos h2, fun h2 => ⟨fun h3 => (if_neg h2).trans (if_pos h3), fun h3 =>
    (if_neg h2).trans (if_neg h3)⟩⟩

end HLL
