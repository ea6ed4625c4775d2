import Verif.Proofs.Runs
import Verif.Proofs.Chains
import Verif.Props.Command
import Verif.Proofs.PFError

/-!
# C93: what the experiments report if the random numbers are random
-/

namespace HLL
open Spec F64 Evl Exp

variable {cfg : Cfg} {ln : F64 → F64} {c32 : Serde.Codec U32} {c64 : Serde.Codec U64} {p : Nat}

/-- `np.mean` on lists that are not too long, with a relative error of at most `2^-20`. -/
def Averages (npMean : List F64 → F64) : Prop :=
  ∀ xs : List ℚ, xs ≠ [] → xs.length ≤ 2 ^ 32 → (∀ x ∈ xs, 0 ≤ x ∧ x ≤ 2 ^ 65) →
    ∃ v : ℚ, npMean (xs.map fin) = fin v ∧ |v - xs.sum / xs.length| ≤ xs.sum / xs.length / 2 ^ 20

/-- `np.median` is not above the largest element. -/
def AtMostLargest (npMedian : List F64 → F64) : Prop :=
  ∀ (xs : List ℚ) (a : ℚ), xs ≠ [] → a ≤ 2 ^ 65 → (∀ x ∈ xs, 0 ≤ x ∧ x ≤ a) →
    ∃ v : ℚ, npMedian (xs.map fin) = fin v ∧ v ≤ a

/-- An experiment on files of hashes (`exp.py prepare`, `exp.py run` and the statistics of `exp.py plot`): `evl gen` is started
on the files `F₀`, `evl run` on the files that are found afterwards; `res` is the result of `calculate_statistics` on the files
that are found then. -/
def HashesExperiment (cfg : Cfg) (ln : F64 → F64) (c32 : Serde.Codec U32) (c64 : Serde.Codec U64)
    (npMean npMedian npStd : List F64 → F64) (size type : Text) (p j j' count runs : Nat) (inp out : Text)
    (F₀ : Files Text) (env env' : Env) (res : Except PyError (List ℤ × List F64 × List F64 × List F64)) : Prop :=
  ∃ F₁ L F₂ L', Completes (main cfg ln c32 c64 env (prepareCommand (j : ℤ) size (count : ℤ) (runs : ℤ) inp)) F₀ F₁ ∧
    Globbed F₁ inp L ∧
    Completes (main cfg ln c32 c64 env' (runHashesCommand (j' : ℤ) type (p : ℤ) out L)) F₁ F₂ ∧
    Globbed F₂ out L' ∧ res = calculateStatistics npMean npMedian npStd (L'.map fun f => (F₂ f).getD [])

/-- An experiment with a file of cardinalities (`exp.py prepare`, `exp.py run` and the statistics of `exp.py plot`): the file is
written into the files `F₀`, then `evl run` is started; `res` is the result of `calculate_statistics` on the files that are
found then. -/
def CardinalitiesExperiment (cfg : Cfg) (ln : F64 → F64) (c32 : Serde.Codec U32) (c64 : Serde.Codec U64)
    (npMean npMedian npStd : List F64 → F64) (type : Text) (p j runs : Nat) (M : ℤ) (dir out : Text)
    (F₀ : Files Text) (env : Env) (res : Except PyError (List ℤ × List F64 × List F64 × List F64)) : Prop :=
  ∃ fuel ts F₂ L', generateCardinalities fuel M = some (.ok ts) ∧
    Completes (main cfg ln c32 c64 env (runCardinalitiesCommand (j : ℤ) type (p : ℤ) out (runs : ℤ)
      (dir ++ '/' :: "cardinalities.dat".toList))) (prepareCardinalities dir ts F₀) F₂ ∧
    Globbed F₂ out L' ∧ res = calculateStatistics npMean npMedian npStd (L'.map fun f => (F₂ f).getD [])

namespace Evl

theorem sum_map_range (x : Nat → ℚ) (n : Nat) : ((List.range n).map x).sum = ∑ r ∈ Finset.range n, x r := by
  induction n with
  | zero => simp
  | succ n ih => rw [List.range_succ, List.map_append, List.sum_append, ih, Finset.sum_range_succ]; simp

/-- The mean and the median of computed errors. -/
theorem columns {npMean : List F64 → F64} (hmean : Averages npMean) {npMedian : List F64 → F64} {rs : List Nat} {runs : Nat} (hrs : rs.Perm (List.range runs))
    (h1 : 1 ≤ runs) (h2 : runs ≤ 2 ^ 32) {x err : Nat → ℚ} (h0 : ∀ r < runs, 0 ≤ err r ∧ err r ≤ 2 ^ 64)
    (hx : ∀ r < runs, |x r - err r| ≤ err r / 2 ^ 50) :
    (∃ v, npMean (rs.map fun r => fin (x r)) = fin v ∧
      v ≤ 1.00001 * ((∑ r ∈ Finset.range runs, err r) / runs)) ∧
    (AtMostLargest npMedian → ∀ b, (∀ r < runs, err r ≤ b) →
      ∃ v, npMedian (rs.map fun r => fin (x r)) = fin v ∧ v ≤ 1.00001 * b) := by
  have hb : ∀ r < runs, 0 ≤ x r ∧ x r ≤ (1 + 1 / 2 ^ 50) * err r := by
    intro r hr
    have := abs_le.1 (hx r hr)
    have := (h0 r hr).1
    constructor <;> linarith
  have hmem : ∀ r, r ∈ rs ↔ r < runs := fun r => by rw [hrs.mem_iff, List.mem_range]
  have hlen : rs.length = runs := by rw [hrs.length_eq, List.length_range]
  have hne : rs ≠ [] := by
    rintro rfl
    simp at hlen
    omega
  have hrp : (0 : ℚ) < runs := by exact_mod_cast h1
  have hcast : rs.map (fun r => fin (x r)) = (rs.map x).map fin := by rw [List.map_map]; rfl
  rw [hcast]
  constructor
  · obtain ⟨v, k1, k2⟩ := hmean (rs.map x) (by simpa using hne) (by simpa [hlen] using h2) (by
      intro y hy
      obtain ⟨r, hr, rfl⟩ := List.mem_map.1 hy
      have := hb r ((hmem r).1 hr)
      refine ⟨this.1, this.2.trans ?_⟩
      have := (h0 r ((hmem r).1 hr)).2
      calc (1 + 1 / 2 ^ 50) * err r ≤ (1 + 1 / 2 ^ 50) * 2 ^ 64 := by gcongr
        _ ≤ 2 ^ 65 := by norm_num)
    refine ⟨v, k1, ?_⟩
    have hsum : (rs.map x).sum = ∑ r ∈ Finset.range runs, x r := by
      rw [(hrs.map x).sum_eq, sum_map_range]
    rw [hsum, List.length_map, hlen] at k2
    have h3 : ∑ r ∈ Finset.range runs, x r ≤ (1 + 1 / 2 ^ 50) * ∑ r ∈ Finset.range runs, err r := by
      rw [Finset.mul_sum]
      exact Finset.sum_le_sum fun r hr => (hb r (Finset.mem_range.1 hr)).2
    have h4 : 0 ≤ ∑ r ∈ Finset.range runs, err r := Finset.sum_nonneg fun r hr => (h0 r (Finset.mem_range.1 hr)).1
    have h5 := (abs_le.1 k2).2
    calc v ≤ (1 + 1 / 2 ^ 20) * ((∑ r ∈ Finset.range runs, x r) / runs) := by linarith
      _ ≤ (1 + 1 / 2 ^ 20) * (((1 + 1 / 2 ^ 50) * ∑ r ∈ Finset.range runs, err r) / runs) := by gcongr
      _ = (1 + 1 / 2 ^ 20) * (1 + 1 / 2 ^ 50) * ((∑ r ∈ Finset.range runs, err r) / runs) := by ring
      _ ≤ _ := by gcongr; norm_num
  · intro hmed b hbb
    have hmin : ∀ r < runs, err r ≤ min b (2 ^ 64) := fun r hr => le_min (hbb r hr) (h0 r hr).2
    obtain ⟨v, k1, k2⟩ := hmed (rs.map x) ((1 + 1 / 2 ^ 50) * min b (2 ^ 64)) (by simpa using hne) (by
      calc (1 + 1 / 2 ^ 50) * min b (2 ^ 64) ≤ (1 + 1 / 2 ^ 50) * 2 ^ 64 := by gcongr; exact min_le_right _ _
        _ ≤ 2 ^ 65 := by norm_num) (by
      intro y hy
      obtain ⟨r, hr, rfl⟩ := List.mem_map.1 hy
      have h3 := hb r ((hmem r).1 hr)
      refine ⟨h3.1, h3.2.trans ?_⟩
      have := hmin r ((hmem r).1 hr)
      gcongr)
    refine ⟨v, k1, k2.trans ?_⟩
    have hb0 : 0 ≤ b := (h0 0 h1).1.trans (hbb 0 h1)
    calc (1 + 1 / 2 ^ 50) * min b (2 ^ 64) ≤ (1 + 1 / 2 ^ 50) * b := by gcongr; exact min_le_left _ _
      _ ≤ _ := by gcongr; norm_num

/-- The size of a relative error. -/
theorem error_le {e t : Nat} (he : e < 2 ^ 64) (h1 : 1 ≤ t) (h2 : t ≤ 2 ^ 64) : |(e : ℚ) - t| / t ≤ 2 ^ 64 := by
  have h1' : (1 : ℚ) ≤ t := by exact_mod_cast h1
  have h2' : (t : ℚ) ≤ 2 ^ 64 := by exact_mod_cast h2
  have he' : (e : ℚ) ≤ 2 ^ 64 := by exact_mod_cast he.le
  have he0 : (0 : ℚ) ≤ e := Nat.cast_nonneg e
  rw [div_le_iff₀ (by linarith)]
  have : |(e : ℚ) - t| ≤ 2 ^ 64 := abs_le.2 ⟨by linarith, by linarith⟩
  linarith

/-- What the statistics contain, for given random numbers. -/
theorem reported_plus (hcfg : cfg.usizeBits = 64) {env env' : Env} (he : 1 ≤ env.cpus) (he' : 1 ≤ env'.cpus)
    {j j' count runs : Nat} (hj : j < 2 ^ 64) (hj' : j' < 2 ^ 64) (hc : count ≤ 2 ^ 52) (hr : 1 ≤ runs)
    (hr' : runs ≤ 2 ^ 32) (h1 : 4 ≤ p) (h2 : p ≤ 18) {inp out : Text}
    (hi0 : inp ≠ []) (hiv : inp.head? ≠ some '-') (hil : inp.getLast? ≠ some '/') (ho0 : out ≠ [])
    (hov : out.head? ≠ some '-') (hol : out.getLast? ≠ some '/') (hne : inp ≠ out) {F₀ : Files Text}
    (hgi : Globbed F₀ inp []) (hgo : Globbed F₀ out []) {npMean npMedian npStd : List F64 → F64}
    (hmean : Averages npMean) {res : Except PyError (List ℤ × List F64 × List F64 × List F64)}
    (hres : HashesExperiment cfg ln c32 c64 npMean npMedian npStd "64".toList "hllp".toList p j j' count runs inp out F₀
      env env' res) {err : Nat → Nat → ℚ}
    (herr : ∀ r t, err r t = |(truncU64 (plusCount ln (Plus.biasOf cfg.search) p ((Finset.range t).image fun i => (env.draw64 r i).toNat)) : ℚ) - t| / t) :
    ∃ ts means medians stds, res = .ok (ts, means, medians, stds) ∧ ∀ t, 1 ≤ t → t ≤ count →
      ts[t - 1]? = some (t : ℤ) ∧
      (∃ v, means[t - 1]? = some (fin v) ∧ v ≤ 1.00001 * ((∑ r ∈ Finset.range runs, err r t) / runs)) ∧
      (AtMostLargest npMedian → ∀ b, (∀ r < runs, err r t ≤ b) →
        ∃ v, medians[t - 1]? = some (fin v) ∧ v ≤ 1.00001 * b) := by
  obtain ⟨F₁, L, F₂, L', k1, k2, k3, k4, rfl⟩ := hres
  obtain ⟨rs, x, e1, -, e3, e4⟩ := ((C90_plus_hashes (mean := npMean) (median := npMedian) (std := npStd) (ln := ln) hcfg
    c32 c64 env env' he he' hj hj' hc hr (lt_of_le_of_lt hr' (by norm_num)) h1 h2 hi0 hiv hil ho0 hov hol hne hgi hgo).2
    F₁ L k1 k2).2 F₂ L' k3 k4
  refine ⟨_, _, _, _, e3, fun t ht1 ht2 => ?_⟩
  have hget : ∀ {α : Type} (f : Nat → α), (((List.range count).map (· + 1)).map f)[t - 1]? = some (f t) := by
    intro α f
    rw [List.getElem?_map, List.getElem?_map, List.getElem?_range (by omega), Option.map_some, Option.map_some,
      Nat.sub_add_cancel ht1]
  rw [hget, hget, hget]
  obtain ⟨c1, c2⟩ := columns hmean (npMedian := npMedian) e1 hr hr' (x := fun r => x r t) (err := fun r => err r t)
    (fun r hr => by
      rw [herr]
      refine ⟨by positivity, error_le (truncU64_lt _) ht1 (by omega)⟩)
    (fun r hr => by
      rw [herr]
      exact e4 r hr t ht1 ht2 _ rfl)
  refine ⟨rfl, ?_, ?_⟩
  · obtain ⟨v, a1, a2⟩ := c1
    exact ⟨v, by rw [a1], a2⟩
  · intro hmed b hb
    obtain ⟨v, a1, a2⟩ := c2 hmed b hb
    exact ⟨v, by rw [a1], a2⟩

/-- What the statistics contain, for given random numbers. -/
theorem reported_pf (hcfg : cfg.usizeBits = 64) {env env' : Env} (he : 1 ≤ env.cpus) (he' : 1 ≤ env'.cpus)
    {j j' count runs : Nat} (hj : j < 2 ^ 64) (hj' : j' < 2 ^ 64) (hc : count ≤ 2 ^ 52) (hr : 1 ≤ runs)
    (hr' : runs ≤ 2 ^ 32) (h1 : 4 ≤ p) (h2 : p ≤ 16) {inp out : Text}
    (hi0 : inp ≠ []) (hiv : inp.head? ≠ some '-') (hil : inp.getLast? ≠ some '/') (ho0 : out ≠ [])
    (hov : out.head? ≠ some '-') (hol : out.getLast? ≠ some '/') (hne : inp ≠ out) {F₀ : Files Text}
    (hgi : Globbed F₀ inp []) (hgo : Globbed F₀ out []) {npMean npMedian npStd : List F64 → F64}
    (hmean : Averages npMean) {res : Except PyError (List ℤ × List F64 × List F64 × List F64)}
    (hres : HashesExperiment cfg ln c32 c64 npMean npMedian npStd "32".toList "hll".toList p j j' count runs inp out F₀
      env env' res) {err : Nat → Nat → ℚ}
    (herr : ∀ r t, err r t = |(truncU64 (pfCount ln p ((Finset.range t).image fun i => (env.draw32 r i).toNat)) : ℚ) - t| / t) :
    ∃ ts means medians stds, res = .ok (ts, means, medians, stds) ∧ ∀ t, 1 ≤ t → t ≤ count →
      ts[t - 1]? = some (t : ℤ) ∧
      (∃ v, means[t - 1]? = some (fin v) ∧ v ≤ 1.00001 * ((∑ r ∈ Finset.range runs, err r t) / runs)) ∧
      (AtMostLargest npMedian → ∀ b, (∀ r < runs, err r t ≤ b) →
        ∃ v, medians[t - 1]? = some (fin v) ∧ v ≤ 1.00001 * b) := by
  obtain ⟨F₁, L, F₂, L', k1, k2, k3, k4, rfl⟩ := hres
  obtain ⟨rs, x, e1, -, e3, e4⟩ := ((C90_pf_hashes (mean := npMean) (median := npMedian) (std := npStd) (ln := ln) hcfg
    c32 c64 env env' he he' hj hj' hc hr (lt_of_le_of_lt hr' (by norm_num)) h1 h2 hi0 hiv hil ho0 hov hol hne hgi hgo).2
    F₁ L k1 k2).2 F₂ L' k3 k4
  refine ⟨_, _, _, _, e3, fun t ht1 ht2 => ?_⟩
  have hget : ∀ {α : Type} (f : Nat → α), (((List.range count).map (· + 1)).map f)[t - 1]? = some (f t) := by
    intro α f
    rw [List.getElem?_map, List.getElem?_map, List.getElem?_range (by omega), Option.map_some, Option.map_some,
      Nat.sub_add_cancel ht1]
  rw [hget, hget, hget]
  obtain ⟨c1, c2⟩ := columns hmean (npMedian := npMedian) e1 hr hr' (x := fun r => x r t) (err := fun r => err r t)
    (fun r hr => by
      rw [herr]
      refine ⟨by positivity, error_le (truncU64_lt _) ht1 (by omega)⟩)
    (fun r hr => by
      rw [herr]
      exact e4 r hr t ht1 ht2 _ rfl)
  refine ⟨rfl, ?_, ?_⟩
  · obtain ⟨v, a1, a2⟩ := c1
    exact ⟨v, by rw [a1], a2⟩
  · intro hmed b hb
    obtain ⟨v, a1, a2⟩ := c2 hmed b hb
    exact ⟨v, by rw [a1], a2⟩

/-- What the statistics contain, for given random numbers. -/
theorem reported_plus_at (hcfg : cfg.usizeBits = 64) {env : Env} (he : 1 ≤ env.cpus) {j runs : Nat} (hj : j < 2 ^ 64)
    (hr : 1 ≤ runs) (hr' : runs ≤ 2 ^ 32) (h1 : 4 ≤ p) (h2 : p ≤ 18) {M : ℤ} (hM : M ≤ 2 ^ 51) {dir out : Text} (hd0 : dir ≠ [])
    (hdv : dir.head? ≠ some '-') (hdl : dir.getLast? ≠ some '/') (ho0 : out ≠ []) (hov : out.head? ≠ some '-')
    (hol : out.getLast? ≠ some '/') (hne : dir ≠ out) {F₀ : Files Text} (hgo : Globbed F₀ out [])
    {npMean npMedian npStd : List F64 → F64} (hmean : Averages npMean)
    {res : Except PyError (List ℤ × List F64 × List F64 × List F64)}
    (hres : CardinalitiesExperiment cfg ln c32 c64 npMean npMedian npStd "hllp".toList p j runs M dir out F₀ env res)
    {err : Nat → Nat → ℚ}
    (herr : ∀ r t, err r t = |(truncU64 (plusCount ln (Plus.biasOf cfg.search) p ((Finset.range t).image fun i => (env.draw64 r i).toNat)) : ℚ) - t| / t) :
    ∃ fuel ts means medians stds, generateCardinalities fuel M = some (.ok ts) ∧ res = .ok (ts, means, medians, stds) ∧
      ∀ (i t : Nat), ts[i]? = some (t : ℤ) → 1 ≤ t ∧
        (∃ v, means[i]? = some (fin v) ∧ v ≤ 1.00001 * ((∑ r ∈ Finset.range runs, err r t) / runs)) ∧
        (AtMostLargest npMedian → ∀ b, (∀ r < runs, err r t ≤ b) →
          ∃ v, medians[i]? = some (fin v) ∧ v ≤ 1.00001 * b) := by
  obtain ⟨fuel, ts', F₂, L', g1, k3, k4, rfl⟩ := hres
  obtain ⟨ts, fuel', g2, -, k1⟩ := C90_plus_cardinalities (mean := npMean) (median := npMedian) (std := npStd) (ln := ln)
    hcfg c32 c64 env he hj hr (lt_of_le_of_lt hr' (by norm_num)) h1 h2 hM hd0 hdv hdl ho0 hov hol hne hgo
  obtain ⟨K, l, z, c1, -, -, -, cz, c5, c2, c3, c4, -⟩ := C81_cardinalities (M := M) (hM.trans (pow_le_pow_right₀ (by norm_num) (by norm_num)))
  obtain rfl : l = ts' := by
    rw [c1] at g1
    split at g1 <;> simp_all
  obtain rfl : l = ts.map fun t : Nat => (t : ℤ) := by
    rw [c1] at g2
    split at g2 <;> simp_all
  obtain ⟨rs, x, e1, -, e3, e4⟩ := k1 F₂ L' k3 k4
  refine ⟨fuel, _, _, _, _, g1, e3, fun i t hi => ?_⟩
  have hi' : ts[i]? = some t := by
    rw [List.getElem?_map, Option.map_eq_some_iff] at hi
    obtain ⟨u, h1, h2⟩ := hi
    rw [h1, Nat.cast_inj.1 h2]
  have htm : t ∈ ts := List.mem_of_getElem? hi'
  obtain ⟨b1, b2⟩ := c4 t (List.mem_map.2 ⟨t, htm, rfl⟩)
  have ht1 : 1 ≤ t := by exact_mod_cast b1
  have ht2 : t ≤ 2 ^ 64 := by
    have hz : (t : ℤ) ≤ 2 ^ 52 := by
      rcases Classical.em ((t : ℤ) = z) with h | h
      · rw [h]
        by_cases h2M : 2 ≤ M
        · have h3 := c3 h2M
          have h4 : (M : ℚ) ≤ 2 ^ 51 := by exact_mod_cast hM
          have : (z : ℚ) ≤ 2 ^ 52 := by linarith
          exact_mod_cast this
        · rw [c5 (by omega)] at cz
          simp at cz
          omega
      · have := b2 h
        omega
    omega
  rw [List.getElem?_map, List.getElem?_map, hi']
  obtain ⟨d1, d2⟩ := columns hmean (npMedian := npMedian) e1 hr hr' (x := fun r => x r t) (err := fun r => err r t)
    (fun r hr => by
      rw [herr]
      refine ⟨by positivity, error_le (truncU64_lt _) ht1 ht2⟩)
    (fun r hr => by
      rw [herr]
      exact e4 r hr t htm _ rfl)
  refine ⟨ht1, ?_, ?_⟩
  · obtain ⟨v, a1, a2⟩ := d1
    exact ⟨v, by rw [Option.map_some, a1], a2⟩
  · intro hmed b hb
    obtain ⟨v, a1, a2⟩ := d2 hmed b hb
    exact ⟨v, by rw [Option.map_some, a1], a2⟩

/-- What the statistics contain, for given random numbers. -/
theorem reported_pf_at (hcfg : cfg.usizeBits = 64) {env : Env} (he : 1 ≤ env.cpus) {j runs : Nat} (hj : j < 2 ^ 64)
    (hr : 1 ≤ runs) (hr' : runs ≤ 2 ^ 32) (h1 : 4 ≤ p) (h2 : p ≤ 16) {M : ℤ} (hM : M ≤ 2 ^ 51) {dir out : Text} (hd0 : dir ≠ [])
    (hdv : dir.head? ≠ some '-') (hdl : dir.getLast? ≠ some '/') (ho0 : out ≠ []) (hov : out.head? ≠ some '-')
    (hol : out.getLast? ≠ some '/') (hne : dir ≠ out) {F₀ : Files Text} (hgo : Globbed F₀ out [])
    {npMean npMedian npStd : List F64 → F64} (hmean : Averages npMean)
    {res : Except PyError (List ℤ × List F64 × List F64 × List F64)}
    (hres : CardinalitiesExperiment cfg ln c32 c64 npMean npMedian npStd "hll".toList p j runs M dir out F₀ env res)
    {err : Nat → Nat → ℚ}
    (herr : ∀ r t, err r t = |(truncU64 (pfCount ln p ((Finset.range t).image fun i => (env.draw32 r i).toNat)) : ℚ) - t| / t) :
    ∃ fuel ts means medians stds, generateCardinalities fuel M = some (.ok ts) ∧ res = .ok (ts, means, medians, stds) ∧
      ∀ (i t : Nat), ts[i]? = some (t : ℤ) → 1 ≤ t ∧
        (∃ v, means[i]? = some (fin v) ∧ v ≤ 1.00001 * ((∑ r ∈ Finset.range runs, err r t) / runs)) ∧
        (AtMostLargest npMedian → ∀ b, (∀ r < runs, err r t ≤ b) →
          ∃ v, medians[i]? = some (fin v) ∧ v ≤ 1.00001 * b) := by
  obtain ⟨fuel, ts', F₂, L', g1, k3, k4, rfl⟩ := hres
  obtain ⟨ts, fuel', g2, -, k1⟩ := C90_pf_cardinalities (mean := npMean) (median := npMedian) (std := npStd) (ln := ln)
    hcfg c32 c64 env he hj hr (lt_of_le_of_lt hr' (by norm_num)) h1 h2 hM hd0 hdv hdl ho0 hov hol hne hgo
  obtain ⟨K, l, z, c1, -, -, -, cz, c5, c2, c3, c4, -⟩ := C81_cardinalities (M := M) (hM.trans (pow_le_pow_right₀ (by norm_num) (by norm_num)))
  obtain rfl : l = ts' := by
    rw [c1] at g1
    split at g1 <;> simp_all
  obtain rfl : l = ts.map fun t : Nat => (t : ℤ) := by
    rw [c1] at g2
    split at g2 <;> simp_all
  obtain ⟨rs, x, e1, -, e3, e4⟩ := k1 F₂ L' k3 k4
  refine ⟨fuel, _, _, _, _, g1, e3, fun i t hi => ?_⟩
  have hi' : ts[i]? = some t := by
    rw [List.getElem?_map, Option.map_eq_some_iff] at hi
    obtain ⟨u, h1, h2⟩ := hi
    rw [h1, Nat.cast_inj.1 h2]
  have htm : t ∈ ts := List.mem_of_getElem? hi'
  obtain ⟨b1, b2⟩ := c4 t (List.mem_map.2 ⟨t, htm, rfl⟩)
  have ht1 : 1 ≤ t := by exact_mod_cast b1
  have ht2 : t ≤ 2 ^ 64 := by
    have hz : (t : ℤ) ≤ 2 ^ 52 := by
      rcases Classical.em ((t : ℤ) = z) with h | h
      · rw [h]
        by_cases h2M : 2 ≤ M
        · have h3 := c3 h2M
          have h4 : (M : ℚ) ≤ 2 ^ 51 := by exact_mod_cast hM
          have : (z : ℚ) ≤ 2 ^ 52 := by linarith
          exact_mod_cast this
        · rw [c5 (by omega)] at cz
          simp at cz
          omega
      · have := b2 h
        omega
    omega
  rw [List.getElem?_map, List.getElem?_map, hi']
  obtain ⟨d1, d2⟩ := columns hmean (npMedian := npMedian) e1 hr hr' (x := fun r => x r t) (err := fun r => err r t)
    (fun r hr => by
      rw [herr]
      refine ⟨by positivity, error_le (truncU64_lt _) ht1 ht2⟩)
    (fun r hr => by
      rw [herr]
      exact e4 r hr t htm _ rfl)
  refine ⟨ht1, ?_, ?_⟩
  · obtain ⟨v, a1, a2⟩ := d1
    exact ⟨v, by rw [Option.map_some, a1], a2⟩
  · intro hmed b hb
    obtain ⟨v, a1, a2⟩ := d2 hmed b hb
    exact ⟨v, by rw [Option.map_some, a1], a2⟩

end Evl

namespace Evl

/-- The mean of the errors of all runs at one cardinality, from the mean square of one error. -/
theorem mean_reported (hln : LnSpec ln) (hcfg : cfg.usizeBits = 64) {j j' count runs : Nat} (hj : j < 2 ^ 64) (hj' : j' < 2 ^ 64)
    (hc : count ≤ 2 ^ 52) (hr : 1 ≤ runs) (hr' : runs ≤ 2 ^ 32) (h1 : 4 ≤ p) (h2 : p ≤ 18) {inp out : Text}
    (hi0 : inp ≠ []) (hiv : inp.head? ≠ some '-') (hil : inp.getLast? ≠ some '/') (ho0 : out ≠ [])
    (hov : out.head? ≠ some '-') (hol : out.getLast? ≠ some '/') (hne : inp ≠ out) {F₀ : Files Text}
    (hgi : Globbed F₀ inp []) (hgo : Globbed F₀ out []) {npMean npMedian npStd : List F64 → F64}
    (hmean : Averages npMean)
    {t : Nat} (ht1 : 1 ≤ t) (ht2 : t ≤ count) {s B : ℝ} (hs : 0 < s) (hB : 0 < B)
    (hsq : ∀ y : (Fin t → Fin (2 ^ 64)) → ℚ, (∀ g, plusCount ln (Plus.biasOf cfg.search) p (hashSet 64 g) = fin (y g)) →
      HLL.mean (fun g => ((y g : ℝ) - t) ^ 2) ≤ B ^ 2) :
    fraction (fun h : Fin (runs * count) → Fin (2 ^ 64) => ∃ env env' res, 1 ≤ env.cpus ∧ 1 ≤ env'.cpus ∧
      (∀ r i, env.draw64 r.1 i.1 = BitVec.ofNat 64 (h (finProdFinEquiv (r, i)))) ∧
      HashesExperiment cfg ln c32 c64 npMean npMedian npStd "64".toList "hllp".toList p j j' count runs inp out F₀
        env env' res ∧
      ¬ ∃ ts means medians stds, res = .ok (ts, means, medians, stds) ∧ ts[t - 1]? = some (t : ℤ) ∧
        ∃ v : ℚ, means[t - 1]? = some (fin v) ∧ (v : ℝ) < (1 + s) * (1.00001 * (B / t + 1 / t))) ≤
      1 / (s ^ 2 * runs) := by
  choose F hF using fun S : Finset Nat => plusCount_range hln cfg.search h1 h2 (S := S)
  have hF' : ∀ S, plusCount ln (Plus.biasOf cfg.search) p S = fin (F S) := fun S => (hF S).1
  refine le_trans (fraction_mono fun h hh => ?_)
    (runs_tail (E := plusCount ln (Plus.biasOf cfg.search) p) (w := 64) (R := runs) (count := count) hr ht1 ht2
      (lt_of_le_of_lt (ht2.trans hc) (by norm_num)) hB hs F hF' (hsq _ fun g => hF' _))
  rintro hcon
  obtain ⟨env, env', res, he, he', hd, hres, hbad⟩ := hh
  refine hbad ?_
  obtain ⟨ts, means, medians, stds, k1, k2⟩ := reported_plus hcfg he he' hj hj' hc hr hr' (by omega) h2 hi0 hiv hil ho0 hov hol hne hgi hgo hmean hres (fun _ _ => rfl)
  obtain ⟨k3, ⟨v, k4, k5⟩, -⟩ := k2 t ht1 ht2
  refine ⟨ts, means, medians, stds, k1, k3, v, k4, ?_⟩
  have himg : ∀ r ∈ Finset.range runs, ((Finset.range t).image fun i => (env.draw64 r i).toNat) =
      (block runs count t r).image fun v => (h v : Nat) % 2 ^ 64 := fun r hr =>
    (block_image ht2 (Finset.mem_range.1 hr) fun r' i e => by
      subst e
      rw [hd, BitVec.toNat_ofNat]).symm
  have k6 : (v : ℝ) ≤ 1.00001 * ((∑ r ∈ Finset.range runs, |(truncU64 (plusCount ln (Plus.biasOf cfg.search) p
      ((block runs count t r).image fun v => (h v : Nat) % 2 ^ 64)) : ℝ) - t| / t) / runs) := by
    rw [Finset.sum_congr rfl fun r hr => by rw [himg r hr]] at k5
    have := (Rat.cast_le (K := ℝ)).2 k5
    push_cast at this
    exact this
  refine k6.trans_lt ?_
  rw [show (1 + s) * (1.00001 * (B / t + 1 / t)) = 1.00001 * ((1 + s) * ((B + 1) / t)) by ring]
  gcongr

end Evl

/-- **C93**, the mean: an experiment with `runs` runs and random numbers, `HyperLogLogPlus` with precision `p ≥ 8`,
`m = 2^p`.  For every cardinality `t` that occurs, and every `s > 0`: except with probability at most `1/(s² runs)`, the mean
error that `calculate_statistics` returns for `t` is below `1 + s` times `(3/√m + 0.005 + 4/m) (1 + 1.6 m/t) + 1/t` (and a
rounding error), whatever the number of threads, their interleaving and the order of the files. -/
theorem C93_plus_mean (hln : LnSpec ln) (hcfg : cfg.usizeBits = 64) {j j' count runs : Nat} (hj : j < 2 ^ 64) (hj' : j' < 2 ^ 64)
    (hc : count ≤ 2 ^ 52) (hr : 1 ≤ runs) (hr' : runs ≤ 2 ^ 32) (h1 : 8 ≤ p) (h2 : p ≤ 18) {inp out : Text}
    (hi0 : inp ≠ []) (hiv : inp.head? ≠ some '-') (hil : inp.getLast? ≠ some '/') (ho0 : out ≠ [])
    (hov : out.head? ≠ some '-') (hol : out.getLast? ≠ some '/') (hne : inp ≠ out) {F₀ : Files Text}
    (hgi : Globbed F₀ inp []) (hgo : Globbed F₀ out []) {npMean npMedian npStd : List F64 → F64}
    (hmean : Averages npMean)
    {t : Nat} (ht1 : 1 ≤ t) (ht2 : t ≤ count) {s : ℝ} (hs : 0 < s) :
    fraction (fun h : Fin (runs * count) → Fin (2 ^ 64) => ∃ env env' res, 1 ≤ env.cpus ∧ 1 ≤ env'.cpus ∧
      (∀ r i, env.draw64 r.1 i.1 = BitVec.ofNat 64 (h (finProdFinEquiv (r, i)))) ∧
      HashesExperiment cfg ln c32 c64 npMean npMedian npStd "64".toList "hllp".toList p j j' count runs inp out F₀
        env env' res ∧
      ¬ ∃ ts means medians stds, res = .ok (ts, means, medians, stds) ∧ ts[t - 1]? = some (t : ℤ) ∧
        ∃ v : ℚ, means[t - 1]? = some (fin v) ∧ (v : ℝ) < (1 + s) * (1.00001 * ((3 / √(2 ^ p) + 0.005 + 4 / 2 ^ p) * (1 + 1.6 * 2 ^ p / t) + 1 / t))) ≤
      1 / (s ^ 2 * runs) := by
  have ht0 : (0 : ℝ) < t := by exact_mod_cast ht1
  have key := mean_reported (npMedian := npMedian) (npStd := npStd) (c32 := c32) (c64 := c64) hln hcfg hj hj' hc hr hr' (by omega) h2 hi0 hiv hil ho0 hov hol
    hne hgi hgo hmean ht1 ht2 hs (B := ((3 / √(2 ^ p) + 0.005 + 4 / 2 ^ p) * (t + 1.6 * 2 ^ p))) (by positivity) fun y hy => 
      any_square hln cfg.search h1 h2 ((ht2.trans hc).trans (by norm_num)) hy
  rw [show ((3 / √(2 ^ p) + 0.005 + 4 / 2 ^ p) * (t + 1.6 * 2 ^ p)) / (t : ℝ) = (3 / √(2 ^ p) + 0.005 + 4 / 2 ^ p) * (1 + 1.6 * 2 ^ p / t) by field_simp] at key
  exact key

/-- **C93**, the mean, from precision 13. -/
theorem C93_plus_mean_13 (hln : LnSpec ln) (hcfg : cfg.usizeBits = 64) {j j' count runs : Nat} (hj : j < 2 ^ 64) (hj' : j' < 2 ^ 64)
    (hc : count ≤ 2 ^ 52) (hr : 1 ≤ runs) (hr' : runs ≤ 2 ^ 32) (h1 : 13 ≤ p) (h2 : p ≤ 18) {inp out : Text}
    (hi0 : inp ≠ []) (hiv : inp.head? ≠ some '-') (hil : inp.getLast? ≠ some '/') (ho0 : out ≠ [])
    (hov : out.head? ≠ some '-') (hol : out.getLast? ≠ some '/') (hne : inp ≠ out) {F₀ : Files Text}
    (hgi : Globbed F₀ inp []) (hgo : Globbed F₀ out []) {npMean npMedian npStd : List F64 → F64}
    (hmean : Averages npMean)
    {t : Nat} (ht1 : 1 ≤ t) (ht2 : t ≤ count) {s : ℝ} (hs : 0 < s) :
    fraction (fun h : Fin (runs * count) → Fin (2 ^ 64) => ∃ env env' res, 1 ≤ env.cpus ∧ 1 ≤ env'.cpus ∧
      (∀ r i, env.draw64 r.1 i.1 = BitVec.ofNat 64 (h (finProdFinEquiv (r, i)))) ∧
      HashesExperiment cfg ln c32 c64 npMean npMedian npStd "64".toList "hllp".toList p j j' count runs inp out F₀
        env env' res ∧
      ¬ ∃ ts means medians stds, res = .ok (ts, means, medians, stds) ∧ ts[t - 1]? = some (t : ℤ) ∧
        ∃ v : ℚ, means[t - 1]? = some (fin v) ∧ (v : ℝ) < (1 + s) * (1.00001 * ((1.67 / √(2 ^ p) + 0.005 + 4 / 2 ^ p) * (1 + 1.6 * 2 ^ p / t) + 1 / t))) ≤
      1 / (s ^ 2 * runs) := by
  have ht0 : (0 : ℝ) < t := by exact_mod_cast ht1
  have key := mean_reported (npMedian := npMedian) (npStd := npStd) (c32 := c32) (c64 := c64) hln hcfg hj hj' hc hr hr' (by omega) h2 hi0 hiv hil ho0 hov hol
    hne hgi hgo hmean ht1 ht2 hs (B := ((1.67 / √(2 ^ p) + 0.005 + 4 / 2 ^ p) * (t + 1.6 * 2 ^ p))) (by positivity) fun y hy => 
      all_square hln cfg.search h1 h2 ((ht2.trans hc).trans (by norm_num)) hy
  rw [show ((1.67 / √(2 ^ p) + 0.005 + 4 / 2 ^ p) * (t + 1.6 * 2 ^ p)) / (t : ℝ) = (1.67 / √(2 ^ p) + 0.005 + 4 / 2 ^ p) * (1 + 1.6 * 2 ^ p / t) by field_simp] at key
  exact key

/-- **C93**, the mean for cardinalities above `6 m`, from precision 14: the standard error in the paper is `1.04/√m`. -/
theorem C93_plus_mean_large (hln : LnSpec ln) (hcfg : cfg.usizeBits = 64) {j j' count runs : Nat} (hj : j < 2 ^ 64) (hj' : j' < 2 ^ 64)
    (hc : count ≤ 2 ^ 52) (hr : 1 ≤ runs) (hr' : runs ≤ 2 ^ 32) (h1 : 14 ≤ p) (h2 : p ≤ 18) {inp out : Text}
    (hi0 : inp ≠ []) (hiv : inp.head? ≠ some '-') (hil : inp.getLast? ≠ some '/') (ho0 : out ≠ [])
    (hov : out.head? ≠ some '-') (hol : out.getLast? ≠ some '/') (hne : inp ≠ out) {F₀ : Files Text}
    (hgi : Globbed F₀ inp []) (hgo : Globbed F₀ out []) {npMean npMedian npStd : List F64 → F64}
    (hmean : Averages npMean)
    {t : Nat} (ht1 : 1 ≤ t) (ht2 : t ≤ count) (ht6 : 6 * 2 ^ p < t) {s : ℝ} (hs : 0 < s) :
    fraction (fun h : Fin (runs * count) → Fin (2 ^ 64) => ∃ env env' res, 1 ≤ env.cpus ∧ 1 ≤ env'.cpus ∧
      (∀ r i, env.draw64 r.1 i.1 = BitVec.ofNat 64 (h (finProdFinEquiv (r, i)))) ∧
      HashesExperiment cfg ln c32 c64 npMean npMedian npStd "64".toList "hllp".toList p j j' count runs inp out F₀
        env env' res ∧
      ¬ ∃ ts means medians stds, res = .ok (ts, means, medians, stds) ∧ ts[t - 1]? = some (t : ℤ) ∧
        ∃ v : ℚ, means[t - 1]? = some (fin v) ∧ (v : ℝ) < (1 + s) * (1.00001 * ((1.12 / √(2 ^ p) + 0.001) + 1 / t))) ≤
      1 / (s ^ 2 * runs) := by
  have ht0 : (0 : ℝ) < t := by exact_mod_cast ht1
  have key := mean_reported (npMedian := npMedian) (npStd := npStd) (c32 := c32) (c64 := c64) hln hcfg hj hj' hc hr hr' (by omega) h2 hi0 hiv hil ho0 hov hol
    hne hgi hgo hmean ht1 ht2 hs (B := ((1.12 / √(2 ^ p) + 0.001) * t)) (by positivity) fun y hy =>  by
      have key := plus_square (δ := 0.07) (q := 0.0001) (e := 1.12 - 1.0006 * (1 + 0.07) * 1.0446) hln
        cfg.search (by omega) h2 ht6 ((ht2.trans hc).trans (by norm_num)) (by norm_num) (by norm_num) hy (tail_seven h1 h2) (by norm_num)
        (by norm_num)
      rwa [add_sub_cancel] at key
  rw [show ((1.12 / √(2 ^ p) + 0.001) * t) / (t : ℝ) = (1.12 / √(2 ^ p) + 0.001) by field_simp] at key
  exact key

namespace Evl

/-- All errors of all runs, from the tail of one error. -/
theorem all_errors {E : Finset Nat → F64} {w runs count : Nat} (hc : count ≤ 2 ^ 52) {D : Nat → ℝ} {a : ℝ}
    (h : ∀ t, 1 ≤ t → t ≤ count → fraction (fun g : Fin t → Fin (2 ^ 64) => ¬ ∃ y : ℚ, E (hashSet w g) = fin y ∧
      |(y : ℝ) - t| ≤ D t) ≤ a) :
    fraction (fun h : Fin (runs * count) → Fin (2 ^ 64) => ∃ x ∈ Finset.range runs ×ˢ Finset.Icc 1 count,
      ¬ |(truncU64 (E ((block runs count x.2 x.1).image fun v => (h v : Nat) % 2 ^ w)) : ℝ) - x.2| / x.2 ≤
        (D x.2 + 1) / x.2) ≤ runs * count * a := by
  refine (fraction_exists (a := a) _ _ fun x hx => ?_).trans (le_of_eq ?_)
  · obtain ⟨hx1, hx2⟩ := Finset.mem_product.1 hx
    rw [Finset.mem_range] at hx1
    obtain ⟨hx3, hx4⟩ := Finset.mem_Icc.1 hx2
    have key := h x.2 hx3 hx4
    have hcard := block_card (R := runs) hx4 hx1
    refine le_trans (fraction_mono (Q := fun h => ¬ ∃ y : ℚ,
      E ((block runs count x.2 x.1).image fun v => (h v : Nat) % 2 ^ w) = fin y ∧ |(y : ℝ) - x.2| ≤ D x.2)
      fun g hg => ?_) ?_
    · rintro ⟨y, h1, h2⟩
      refine hg ?_
      rw [h1]
      have := HLL.trunc_error (y := y) (t := x.2) (lt_of_le_of_lt (hx4.trans hc) (by norm_num))
      gcongr
      linarith
    · rw [fraction_restrict (block runs count x.2 x.1) w fun S => ¬ ∃ y : ℚ, E S = fin y ∧ |(y : ℝ) - x.2| ≤ D x.2]
      rw [hcard]
      exact key
  · rw [Finset.card_product, Finset.card_range, Nat.card_Icc, Nat.add_sub_cancel]
    push_cast
    ring

/-- The mean and the median from bounds for all errors. -/
theorem mean_median_le {runs : Nat} (hr : 1 ≤ runs) {err : Nat → ℚ} {b : ℝ} (h : ∀ r < runs, (err r : ℝ) ≤ b) :
    ∃ c : ℚ, (c : ℝ) ≤ b ∧ (∀ r < runs, err r ≤ c) ∧ (∑ r ∈ Finset.range runs, err r) / runs ≤ c := by
  obtain ⟨r0, h0, h1⟩ := Finset.exists_max_image (Finset.range runs) err ⟨0, Finset.mem_range.2 hr⟩
  refine ⟨err r0, h r0 (Finset.mem_range.1 h0), fun r hr => h1 r (Finset.mem_range.2 hr), ?_⟩
  have hr0 : (0 : ℚ) < runs := by exact_mod_cast hr
  rw [div_le_iff₀ hr0]
  have := Finset.sum_le_card_nsmul (Finset.range runs) err (err r0) h1
  rw [Finset.card_range, nsmul_eq_mul] at this
  linarith

end Evl

/-- **C93**, all cardinalities at once, `HyperLogLogPlus` with precision `p ≥ 8`, `m = 2^p`: except with probability at most
`runs · count · 6 exp(-m δ²/4)`, the mean and the median of the errors that are returned are, for every cardinality `t` up to
`count`, at most `(1.05 δ + 0.005 + 4/m) (1 + 1.6 m/t) + 1/t`, apart from a rounding error. -/
theorem C93_plus_all (hln : LnSpec ln) (hcfg : cfg.usizeBits = 64) {j j' count runs : Nat} (hj : j < 2 ^ 64) (hj' : j' < 2 ^ 64)
    (hc : count ≤ 2 ^ 52) (hr : 1 ≤ runs) (hr' : runs ≤ 2 ^ 32) (h1 : 8 ≤ p) (h2 : p ≤ 18) {inp out : Text}
    (hi0 : inp ≠ []) (hiv : inp.head? ≠ some '-') (hil : inp.getLast? ≠ some '/') (ho0 : out ≠ [])
    (hov : out.head? ≠ some '-') (hol : out.getLast? ≠ some '/') (hne : inp ≠ out) {F₀ : Files Text}
    (hgi : Globbed F₀ inp []) (hgo : Globbed F₀ out []) {npMean npMedian npStd : List F64 → F64}
    (hmean : Averages npMean) (hmed : AtMostLargest npMedian)
    {δ : ℝ} (hδ0 : 0 < δ) (hδ : δ ≤ 1 / 10) :
    fraction (fun h : Fin (runs * count) → Fin (2 ^ 64) => ∃ env env' res, 1 ≤ env.cpus ∧ 1 ≤ env'.cpus ∧
      (∀ r i, env.draw64 r.1 i.1 = BitVec.ofNat 64 (h (finProdFinEquiv (r, i)))) ∧
      HashesExperiment cfg ln c32 c64 npMean npMedian npStd "64".toList "hllp".toList p j j' count runs inp out F₀
        env env' res ∧
      ¬ ∃ ts means medians stds, res = .ok (ts, means, medians, stds) ∧ ∀ t : Nat, 1 ≤ t → t ≤ count →
        ts[t - 1]? = some (t : ℤ) ∧
        ∃ v v' : ℚ, means[t - 1]? = some (fin v) ∧ medians[t - 1]? = some (fin v') ∧
          max (v : ℝ) v' ≤ 1.00001 * ((1.05 * δ + 0.005 + 4 / 2 ^ p) * (1 + 1.6 * 2 ^ p / t) + 1 / t)) ≤
      runs * count * (6 * Real.exp (-(2 ^ p * δ ^ 2 / 4))) := by
  refine le_trans (fraction_mono fun h hh => ?_) (all_errors (runs := runs) (E := plusCount ln (Plus.biasOf cfg.search) p) (w := 64) hc
    (D := fun t => (1.05 * δ + 0.005 + 4 / 2 ^ p) * (t + 1.6 * 2 ^ p)) fun t ht1 ht2 =>
      plus_tail hln cfg.search h1 h2 hδ0 hδ ((ht2.trans hc).trans (by norm_num)))
  by_contra hcon
  obtain ⟨env, env', res, he, he', hd, hres, hbad⟩ := hh
  refine hbad ?_
  obtain ⟨ts, means, medians, stds, k1, k2⟩ := reported_plus hcfg he he' hj hj' hc hr hr' (by omega) h2 hi0 hiv hil ho0 hov hol hne hgi hgo hmean hres (fun _ _ => rfl)
  refine ⟨ts, means, medians, stds, k1, fun t ht1 ht2 => ?_⟩
  obtain ⟨k3, ⟨v, k4, k5⟩, k6⟩ := k2 t ht1 ht2
  have ht0 : (0 : ℝ) < t := by exact_mod_cast ht1
  obtain ⟨c, c1, c2, c3⟩ := mean_median_le hr (b := (1.05 * δ + 0.005 + 4 / 2 ^ p) * (1 + 1.6 * 2 ^ p / t) + 1 / t) (err := fun r =>
      |(truncU64 (plusCount ln (Plus.biasOf cfg.search) p ((Finset.range t).image fun i => (env.draw64 r i).toNat)) : ℚ) - t| / t) fun r hr => by
    rw [← block_image (w := 64) (h := h) ht2 hr fun r' i e => by
      subst e
      rw [hd, BitVec.toNat_ofNat]]
    have h1 := not_not.1 fun hn => hcon ⟨(r, t), Finset.mem_product.2 ⟨Finset.mem_range.2 hr, Finset.mem_Icc.2 ⟨ht1, ht2⟩⟩, hn⟩
    push_cast
    refine h1.trans (le_of_eq ?_)
    field_simp
  obtain ⟨v', k7, k8⟩ := k6 hmed c c2
  refine ⟨k3, v, v', k4, k7, max_le ?_ ?_⟩
  · have : (v : ℝ) ≤ 1.00001 * c := by
      have h1 := k5.trans (mul_le_mul_of_nonneg_left c3 (by norm_num))
      have := (Rat.cast_le (K := ℝ)).2 h1
      push_cast at this
      exact this
    linarith
  · have : (v' : ℝ) ≤ 1.00001 * c := by
      have := (Rat.cast_le (K := ℝ)).2 k8
      push_cast at this
      exact this
    linarith

/-- **C93**, all cardinalities at once, `HyperLogLogPF` with precision `p ≥ 8`, as far as 32 bits suffice. -/
theorem C93_pf_all (hln : LnSpec ln) (hcfg : cfg.usizeBits = 64) {j j' count runs : Nat} (hj : j < 2 ^ 64) (hj' : j' < 2 ^ 64)
    (hc : count ≤ 2 ^ 52) (hr : 1 ≤ runs) (hr' : runs ≤ 2 ^ 32) (h1 : 8 ≤ p) (h2 : p ≤ 16) {inp out : Text}
    (hi0 : inp ≠ []) (hiv : inp.head? ≠ some '-') (hil : inp.getLast? ≠ some '/') (ho0 : out ≠ [])
    (hov : out.head? ≠ some '-') (hol : out.getLast? ≠ some '/') (hne : inp ≠ out) {F₀ : Files Text}
    (hgi : Globbed F₀ inp []) (hgo : Globbed F₀ out []) {npMean npMedian npStd : List F64 → F64}
    (hmean : Averages npMean) (hmed : AtMostLargest npMedian)
    {δ : ℝ} (hδ0 : 0 < δ) (hδ : δ ≤ 1 / 10)
    (hn : (1 + (δ + 1.1 / 2 ^ p + 0.001)) * count ≤ 2 ^ 32 / 30) :
    fraction (fun h : Fin (runs * count) → Fin (2 ^ 64) => ∃ env env' res, 1 ≤ env.cpus ∧ 1 ≤ env'.cpus ∧
      (∀ r i, env.draw32 r.1 i.1 = BitVec.ofNat 32 (h (finProdFinEquiv (r, i)))) ∧
      HashesExperiment cfg ln c32 c64 npMean npMedian npStd "32".toList "hll".toList p j j' count runs inp out F₀
        env env' res ∧
      ¬ ∃ ts means medians stds, res = .ok (ts, means, medians, stds) ∧ ∀ t : Nat, 1 ≤ t → t ≤ count →
        ts[t - 1]? = some (t : ℤ) ∧
        ∃ v v' : ℚ, means[t - 1]? = some (fin v) ∧ medians[t - 1]? = some (fin v') ∧
          max (v : ℝ) v' ≤ 1.00001 * ((1.05 * δ + 0.005 + 4 / 2 ^ p) * (1 + 1.6 * 2 ^ p / t) + (if t ≤ 2 * 2 ^ p then 0 else 0.11 * 2 ^ p) / t + 1 / t)) ≤
      runs * count * (4 * Real.exp (-(2 ^ p * δ ^ 2 / 6))) := by
  refine le_trans (fraction_mono fun h hh => ?_) (all_errors (runs := runs) (E := pfCount ln p) (w := 32) hc
    (D := fun t => (1.05 * δ + 0.005 + 4 / 2 ^ p) * (t + 1.6 * 2 ^ p) + (if t ≤ 2 * 2 ^ p then 0 else 0.11 * 2 ^ p)) fun t ht1 ht2 =>
      pf_tail hln h1 h2 hδ0 hδ (le_trans (by
        have : (t : ℝ) ≤ count := by exact_mod_cast ht2
        gcongr) hn))
  by_contra hcon
  obtain ⟨env, env', res, he, he', hd, hres, hbad⟩ := hh
  refine hbad ?_
  obtain ⟨ts, means, medians, stds, k1, k2⟩ := reported_pf hcfg he he' hj hj' hc hr hr' (by omega) h2 hi0 hiv hil ho0 hov hol hne hgi hgo hmean hres (fun _ _ => rfl)
  refine ⟨ts, means, medians, stds, k1, fun t ht1 ht2 => ?_⟩
  obtain ⟨k3, ⟨v, k4, k5⟩, k6⟩ := k2 t ht1 ht2
  have ht0 : (0 : ℝ) < t := by exact_mod_cast ht1
  obtain ⟨c, c1, c2, c3⟩ := mean_median_le hr (b := (1.05 * δ + 0.005 + 4 / 2 ^ p) * (1 + 1.6 * 2 ^ p / t) + (if t ≤ 2 * 2 ^ p then 0 else 0.11 * 2 ^ p) / t + 1 / t) (err := fun r =>
      |(truncU64 (pfCount ln p ((Finset.range t).image fun i => (env.draw32 r i).toNat)) : ℚ) - t| / t) fun r hr => by
    rw [← block_image (w := 32) (h := h) ht2 hr fun r' i e => by
      subst e
      rw [hd, BitVec.toNat_ofNat]]
    have h1 := not_not.1 fun hn => hcon ⟨(r, t), Finset.mem_product.2 ⟨Finset.mem_range.2 hr, Finset.mem_Icc.2 ⟨ht1, ht2⟩⟩, hn⟩
    push_cast
    refine h1.trans (le_of_eq ?_)
    field_simp
  obtain ⟨v', k7, k8⟩ := k6 hmed c c2
  refine ⟨k3, v, v', k4, k7, max_le ?_ ?_⟩
  · have : (v : ℝ) ≤ 1.00001 * c := by
      have h1 := k5.trans (mul_le_mul_of_nonneg_left c3 (by norm_num))
      have := (Rat.cast_le (K := ℝ)).2 h1
      push_cast at this
      exact this
    linarith
  · have : (v' : ℝ) ≤ 1.00001 * c := by
      have := (Rat.cast_le (K := ℝ)).2 k8
      push_cast at this
      exact this
    linarith

namespace Evl

/-- The mean of the errors of all runs at one cardinality, from the mean square of one error. -/
theorem mean_reported_at (hln : LnSpec ln) (hcfg : cfg.usizeBits = 64) {j runs : Nat} (hj : j < 2 ^ 64)
    (hr : 1 ≤ runs) (hr' : runs ≤ 2 ^ 32) (h1 : 4 ≤ p) (h2 : p ≤ 18) {M : ℤ} (hM : M ≤ 2 ^ 51) {dir out : Text} (hd0 : dir ≠ [])
    (hdv : dir.head? ≠ some '-') (hdl : dir.getLast? ≠ some '/') (ho0 : out ≠ []) (hov : out.head? ≠ some '-')
    (hol : out.getLast? ≠ some '/') (hne : dir ≠ out) {F₀ : Files Text} (hgo : Globbed F₀ out [])
    {npMean npMedian npStd : List F64 → F64} (hmean : Averages npMean)
    {N : Nat} (hN : N ≤ 2 ^ 52) {t : Nat} (ht1 : 1 ≤ t) (ht2 : t ≤ N) {s B : ℝ} (hs : 0 < s) (hB : 0 < B)
    (hsq : ∀ y : (Fin t → Fin (2 ^ 64)) → ℚ, (∀ g, plusCount ln (Plus.biasOf cfg.search) p (hashSet 64 g) = fin (y g)) →
      HLL.mean (fun g => ((y g : ℝ) - t) ^ 2) ≤ B ^ 2) :
    fraction (fun h : Fin (runs * N) → Fin (2 ^ 64) => ∃ env res, 1 ≤ env.cpus ∧
      (∀ r i, env.draw64 r.1 i.1 = BitVec.ofNat 64 (h (finProdFinEquiv (r, i)))) ∧
      CardinalitiesExperiment cfg ln c32 c64 npMean npMedian npStd "hllp".toList p j runs M dir out F₀ env res ∧
      ¬ ∃ fuel ts means medians stds, generateCardinalities fuel M = some (.ok ts) ∧
        res = .ok (ts, means, medians, stds) ∧ ∀ i : Nat, ts[i]? = some (t : ℤ) →
        ∃ v : ℚ, means[i]? = some (fin v) ∧ (v : ℝ) < (1 + s) * (1.00001 * (B / t + 1 / t))) ≤
      1 / (s ^ 2 * runs) := by
  choose F hF using fun S : Finset Nat => plusCount_range hln cfg.search h1 h2 (S := S)
  have hF' : ∀ S, plusCount ln (Plus.biasOf cfg.search) p S = fin (F S) := fun S => (hF S).1
  refine le_trans (fraction_mono fun h hh => ?_)
    (runs_tail (E := plusCount ln (Plus.biasOf cfg.search) p) (w := 64) (R := runs) (count := N) hr ht1 ht2
      (lt_of_le_of_lt (ht2.trans hN) (by norm_num)) hB hs F hF' (hsq _ fun g => hF' _))
  rintro hcon
  obtain ⟨env, res, he, hd, hres, hbad⟩ := hh
  refine hbad ?_
  obtain ⟨fuel, ts, means, medians, stds, k0, k1, k2⟩ := reported_plus_at hcfg he hj hr hr' (by omega) h2 hM hd0 hdv hdl ho0 hov hol hne hgo hmean hres (fun _ _ => rfl)
  refine ⟨fuel, ts, means, medians, stds, k0, k1, fun i hi => ?_⟩
  obtain ⟨-, ⟨v, k4, k5⟩, -⟩ := k2 i t hi
  refine ⟨v, k4, ?_⟩
  have himg : ∀ r ∈ Finset.range runs, ((Finset.range t).image fun i => (env.draw64 r i).toNat) =
      (block runs N t r).image fun v => (h v : Nat) % 2 ^ 64 := fun r hr =>
    (block_image ht2 (Finset.mem_range.1 hr) fun r' i e => by
      subst e
      rw [hd, BitVec.toNat_ofNat]).symm
  have k6 : (v : ℝ) ≤ 1.00001 * ((∑ r ∈ Finset.range runs, |(truncU64 (plusCount ln (Plus.biasOf cfg.search) p
      ((block runs N t r).image fun v => (h v : Nat) % 2 ^ 64)) : ℝ) - t| / t) / runs) := by
    rw [Finset.sum_congr rfl fun r hr => by rw [himg r hr]] at k5
    have := (Rat.cast_le (K := ℝ)).2 k5
    push_cast at this
    exact this
  refine k6.trans_lt ?_
  rw [show (1 + s) * (1.00001 * (B / t + 1 / t)) = 1.00001 * ((1 + s) * ((B + 1) / t)) by ring]
  gcongr

end Evl

/-- **C93**, the mean, with a file of cardinalities: `N` random numbers are enough for the cardinalities up to `N`. -/
theorem C93_plus_mean_at (hln : LnSpec ln) (hcfg : cfg.usizeBits = 64) {j runs : Nat} (hj : j < 2 ^ 64)
    (hr : 1 ≤ runs) (hr' : runs ≤ 2 ^ 32) (h1 : 8 ≤ p) (h2 : p ≤ 18) {M : ℤ} (hM : M ≤ 2 ^ 51) {dir out : Text} (hd0 : dir ≠ [])
    (hdv : dir.head? ≠ some '-') (hdl : dir.getLast? ≠ some '/') (ho0 : out ≠ []) (hov : out.head? ≠ some '-')
    (hol : out.getLast? ≠ some '/') (hne : dir ≠ out) {F₀ : Files Text} (hgo : Globbed F₀ out [])
    {npMean npMedian npStd : List F64 → F64} (hmean : Averages npMean)
    {N : Nat} (hN : N ≤ 2 ^ 52) {t : Nat} (ht1 : 1 ≤ t) (ht2 : t ≤ N) {s : ℝ} (hs : 0 < s) :
    fraction (fun h : Fin (runs * N) → Fin (2 ^ 64) => ∃ env res, 1 ≤ env.cpus ∧
      (∀ r i, env.draw64 r.1 i.1 = BitVec.ofNat 64 (h (finProdFinEquiv (r, i)))) ∧
      CardinalitiesExperiment cfg ln c32 c64 npMean npMedian npStd "hllp".toList p j runs M dir out F₀ env res ∧
      ¬ ∃ fuel ts means medians stds, generateCardinalities fuel M = some (.ok ts) ∧
        res = .ok (ts, means, medians, stds) ∧ ∀ i : Nat, ts[i]? = some (t : ℤ) →
        ∃ v : ℚ, means[i]? = some (fin v) ∧ (v : ℝ) < (1 + s) * (1.00001 * ((3 / √(2 ^ p) + 0.005 + 4 / 2 ^ p) * (1 + 1.6 * 2 ^ p / t) + 1 / t))) ≤
      1 / (s ^ 2 * runs) := by
  have ht0 : (0 : ℝ) < t := by exact_mod_cast ht1
  have key := mean_reported_at (npMedian := npMedian) (npStd := npStd) (c32 := c32) (c64 := c64) hln hcfg hj hr hr' (by omega) h2
    hM hd0 hdv hdl ho0 hov hol hne hgo hmean hN ht1 ht2 hs (B := ((3 / √(2 ^ p) + 0.005 + 4 / 2 ^ p) * (t + 1.6 * 2 ^ p))) (by positivity) fun y hy => 
      any_square hln cfg.search h1 h2 ((ht2.trans hN).trans (by norm_num)) hy
  rw [show ((3 / √(2 ^ p) + 0.005 + 4 / 2 ^ p) * (t + 1.6 * 2 ^ p)) / (t : ℝ) = (3 / √(2 ^ p) + 0.005 + 4 / 2 ^ p) * (1 + 1.6 * 2 ^ p / t) by field_simp] at key
  exact key

/-- **C93**, the mean for cardinalities above `6 m`, with a file of cardinalities. -/
theorem C93_plus_mean_large_at (hln : LnSpec ln) (hcfg : cfg.usizeBits = 64) {j runs : Nat} (hj : j < 2 ^ 64)
    (hr : 1 ≤ runs) (hr' : runs ≤ 2 ^ 32) (h1 : 14 ≤ p) (h2 : p ≤ 18) {M : ℤ} (hM : M ≤ 2 ^ 51) {dir out : Text} (hd0 : dir ≠ [])
    (hdv : dir.head? ≠ some '-') (hdl : dir.getLast? ≠ some '/') (ho0 : out ≠ []) (hov : out.head? ≠ some '-')
    (hol : out.getLast? ≠ some '/') (hne : dir ≠ out) {F₀ : Files Text} (hgo : Globbed F₀ out [])
    {npMean npMedian npStd : List F64 → F64} (hmean : Averages npMean)
    {N : Nat} (hN : N ≤ 2 ^ 52) {t : Nat} (ht1 : 1 ≤ t) (ht2 : t ≤ N) (ht6 : 6 * 2 ^ p < t) {s : ℝ} (hs : 0 < s) :
    fraction (fun h : Fin (runs * N) → Fin (2 ^ 64) => ∃ env res, 1 ≤ env.cpus ∧
      (∀ r i, env.draw64 r.1 i.1 = BitVec.ofNat 64 (h (finProdFinEquiv (r, i)))) ∧
      CardinalitiesExperiment cfg ln c32 c64 npMean npMedian npStd "hllp".toList p j runs M dir out F₀ env res ∧
      ¬ ∃ fuel ts means medians stds, generateCardinalities fuel M = some (.ok ts) ∧
        res = .ok (ts, means, medians, stds) ∧ ∀ i : Nat, ts[i]? = some (t : ℤ) →
        ∃ v : ℚ, means[i]? = some (fin v) ∧ (v : ℝ) < (1 + s) * (1.00001 * ((1.12 / √(2 ^ p) + 0.001) + 1 / t))) ≤
      1 / (s ^ 2 * runs) := by
  have ht0 : (0 : ℝ) < t := by exact_mod_cast ht1
  have key := mean_reported_at (npMedian := npMedian) (npStd := npStd) (c32 := c32) (c64 := c64) hln hcfg hj hr hr' (by omega) h2
    hM hd0 hdv hdl ho0 hov hol hne hgo hmean hN ht1 ht2 hs (B := ((1.12 / √(2 ^ p) + 0.001) * t)) (by positivity) fun y hy =>  by
      have key := plus_square (δ := 0.07) (q := 0.0001) (e := 1.12 - 1.0006 * (1 + 0.07) * 1.0446) hln
        cfg.search (by omega) h2 ht6 ((ht2.trans hN).trans (by norm_num)) (by norm_num) (by norm_num) hy (tail_seven h1 h2) (by norm_num)
        (by norm_num)
      rwa [add_sub_cancel] at key
  rw [show ((1.12 / √(2 ^ p) + 0.001) * t) / (t : ℝ) = (1.12 / √(2 ^ p) + 0.001) by field_simp] at key
  exact key

/-- **C93**, all cardinalities up to `N` at once, `HyperLogLogPlus`, with a file of cardinalities. -/
theorem C93_plus_all_at (hln : LnSpec ln) (hcfg : cfg.usizeBits = 64) {j runs : Nat} (hj : j < 2 ^ 64)
    (hr : 1 ≤ runs) (hr' : runs ≤ 2 ^ 32) (h1 : 8 ≤ p) (h2 : p ≤ 18) {M : ℤ} (hM : M ≤ 2 ^ 51) {dir out : Text} (hd0 : dir ≠ [])
    (hdv : dir.head? ≠ some '-') (hdl : dir.getLast? ≠ some '/') (ho0 : out ≠ []) (hov : out.head? ≠ some '-')
    (hol : out.getLast? ≠ some '/') (hne : dir ≠ out) {F₀ : Files Text} (hgo : Globbed F₀ out [])
    {npMean npMedian npStd : List F64 → F64} (hmean : Averages npMean) (hmed : AtMostLargest npMedian)
    {N : Nat} (hN : N ≤ 2 ^ 52) {δ : ℝ} (hδ0 : 0 < δ) (hδ : δ ≤ 1 / 10) :
    fraction (fun h : Fin (runs * N) → Fin (2 ^ 64) => ∃ env res, 1 ≤ env.cpus ∧
      (∀ r i, env.draw64 r.1 i.1 = BitVec.ofNat 64 (h (finProdFinEquiv (r, i)))) ∧
      CardinalitiesExperiment cfg ln c32 c64 npMean npMedian npStd "hllp".toList p j runs M dir out F₀ env res ∧
      ¬ ∃ fuel ts means medians stds, generateCardinalities fuel M = some (.ok ts) ∧
        res = .ok (ts, means, medians, stds) ∧ ∀ (i t : Nat), ts[i]? = some (t : ℤ) → t ≤ N →
        ∃ v v' : ℚ, means[i]? = some (fin v) ∧ medians[i]? = some (fin v') ∧
          max (v : ℝ) v' ≤ 1.00001 * ((1.05 * δ + 0.005 + 4 / 2 ^ p) * (1 + 1.6 * 2 ^ p / t) + 1 / t)) ≤
      runs * N * (6 * Real.exp (-(2 ^ p * δ ^ 2 / 4))) := by
  refine le_trans (fraction_mono fun h hh => ?_) (all_errors (runs := runs) (E := plusCount ln (Plus.biasOf cfg.search) p) (w := 64) hN
    (D := fun t => (1.05 * δ + 0.005 + 4 / 2 ^ p) * (t + 1.6 * 2 ^ p)) fun t ht1 ht2 =>
      plus_tail hln cfg.search h1 h2 hδ0 hδ ((ht2.trans hN).trans (by norm_num)))
  by_contra hcon
  obtain ⟨env, res, he, hd, hres, hbad⟩ := hh
  refine hbad ?_
  obtain ⟨fuel, ts, means, medians, stds, k0, k1, k2⟩ := reported_plus_at hcfg he hj hr hr' (by omega) h2 hM hd0 hdv hdl ho0 hov hol hne hgo hmean hres (fun _ _ => rfl)
  refine ⟨fuel, ts, means, medians, stds, k0, k1, fun i t hi ht2 => ?_⟩
  obtain ⟨ht1, ⟨v, k4, k5⟩, k6⟩ := k2 i t hi
  have ht0 : (0 : ℝ) < t := by exact_mod_cast ht1
  obtain ⟨c, c1, c2, c3⟩ := mean_median_le hr (b := (1.05 * δ + 0.005 + 4 / 2 ^ p) * (1 + 1.6 * 2 ^ p / t) + 1 / t) (err := fun r =>
      |(truncU64 (plusCount ln (Plus.biasOf cfg.search) p ((Finset.range t).image fun i => (env.draw64 r i).toNat)) : ℚ) - t| / t) fun r hr => by
    rw [← block_image (w := 64) (h := h) ht2 hr fun r' i e => by
      subst e
      rw [hd, BitVec.toNat_ofNat]]
    have h1 := not_not.1 fun hn => hcon ⟨(r, t), Finset.mem_product.2 ⟨Finset.mem_range.2 hr, Finset.mem_Icc.2 ⟨ht1, ht2⟩⟩, hn⟩
    push_cast
    refine h1.trans (le_of_eq ?_)
    field_simp
  obtain ⟨v', k7, k8⟩ := k6 hmed c c2
  refine ⟨v, v', k4, k7, max_le ?_ ?_⟩
  · have : (v : ℝ) ≤ 1.00001 * c := by
      have h1 := k5.trans (mul_le_mul_of_nonneg_left c3 (by norm_num))
      have := (Rat.cast_le (K := ℝ)).2 h1
      push_cast at this
      exact this
    linarith
  · have : (v' : ℝ) ≤ 1.00001 * c := by
      have := (Rat.cast_le (K := ℝ)).2 k8
      push_cast at this
      exact this
    linarith

/-- **C93**, all cardinalities up to `N` at once, `HyperLogLogPF`, with a file of cardinalities. -/
theorem C93_pf_all_at (hln : LnSpec ln) (hcfg : cfg.usizeBits = 64) {j runs : Nat} (hj : j < 2 ^ 64)
    (hr : 1 ≤ runs) (hr' : runs ≤ 2 ^ 32) (h1 : 8 ≤ p) (h2 : p ≤ 16) {M : ℤ} (hM : M ≤ 2 ^ 51) {dir out : Text} (hd0 : dir ≠ [])
    (hdv : dir.head? ≠ some '-') (hdl : dir.getLast? ≠ some '/') (ho0 : out ≠ []) (hov : out.head? ≠ some '-')
    (hol : out.getLast? ≠ some '/') (hne : dir ≠ out) {F₀ : Files Text} (hgo : Globbed F₀ out [])
    {npMean npMedian npStd : List F64 → F64} (hmean : Averages npMean) (hmed : AtMostLargest npMedian)
    {N : Nat} (hN : N ≤ 2 ^ 52) {δ : ℝ} (hδ0 : 0 < δ) (hδ : δ ≤ 1 / 10)
    (hn : (1 + (δ + 1.1 / 2 ^ p + 0.001)) * N ≤ 2 ^ 32 / 30) :
    fraction (fun h : Fin (runs * N) → Fin (2 ^ 64) => ∃ env res, 1 ≤ env.cpus ∧
      (∀ r i, env.draw32 r.1 i.1 = BitVec.ofNat 32 (h (finProdFinEquiv (r, i)))) ∧
      CardinalitiesExperiment cfg ln c32 c64 npMean npMedian npStd "hll".toList p j runs M dir out F₀ env res ∧
      ¬ ∃ fuel ts means medians stds, generateCardinalities fuel M = some (.ok ts) ∧
        res = .ok (ts, means, medians, stds) ∧ ∀ (i t : Nat), ts[i]? = some (t : ℤ) → t ≤ N →
        ∃ v v' : ℚ, means[i]? = some (fin v) ∧ medians[i]? = some (fin v') ∧
          max (v : ℝ) v' ≤ 1.00001 * ((1.05 * δ + 0.005 + 4 / 2 ^ p) * (1 + 1.6 * 2 ^ p / t) + (if t ≤ 2 * 2 ^ p then 0 else 0.11 * 2 ^ p) / t + 1 / t)) ≤
      runs * N * (4 * Real.exp (-(2 ^ p * δ ^ 2 / 6))) := by
  refine le_trans (fraction_mono fun h hh => ?_) (all_errors (runs := runs) (E := pfCount ln p) (w := 32) hN
    (D := fun t => (1.05 * δ + 0.005 + 4 / 2 ^ p) * (t + 1.6 * 2 ^ p) + (if t ≤ 2 * 2 ^ p then 0 else 0.11 * 2 ^ p)) fun t ht1 ht2 =>
      pf_tail hln h1 h2 hδ0 hδ (le_trans (by
        have : (t : ℝ) ≤ N := by exact_mod_cast ht2
        gcongr) hn))
  by_contra hcon
  obtain ⟨env, res, he, hd, hres, hbad⟩ := hh
  refine hbad ?_
  obtain ⟨fuel, ts, means, medians, stds, k0, k1, k2⟩ := reported_pf_at hcfg he hj hr hr' (by omega) h2 hM hd0 hdv hdl ho0 hov hol hne hgo hmean hres (fun _ _ => rfl)
  refine ⟨fuel, ts, means, medians, stds, k0, k1, fun i t hi ht2 => ?_⟩
  obtain ⟨ht1, ⟨v, k4, k5⟩, k6⟩ := k2 i t hi
  have ht0 : (0 : ℝ) < t := by exact_mod_cast ht1
  obtain ⟨c, c1, c2, c3⟩ := mean_median_le hr (b := (1.05 * δ + 0.005 + 4 / 2 ^ p) * (1 + 1.6 * 2 ^ p / t) + (if t ≤ 2 * 2 ^ p then 0 else 0.11 * 2 ^ p) / t + 1 / t) (err := fun r =>
      |(truncU64 (pfCount ln p ((Finset.range t).image fun i => (env.draw32 r i).toNat)) : ℚ) - t| / t) fun r hr => by
    rw [← block_image (w := 32) (h := h) ht2 hr fun r' i e => by
      subst e
      rw [hd, BitVec.toNat_ofNat]]
    have h1 := not_not.1 fun hn => hcon ⟨(r, t), Finset.mem_product.2 ⟨Finset.mem_range.2 hr, Finset.mem_Icc.2 ⟨ht1, ht2⟩⟩, hn⟩
    push_cast
    refine h1.trans (le_of_eq ?_)
    field_simp
  obtain ⟨v', k7, k8⟩ := k6 hmed c c2
  refine ⟨v, v', k4, k7, max_le ?_ ?_⟩
  · have : (v : ℝ) ≤ 1.00001 * c := by
      have h1 := k5.trans (mul_le_mul_of_nonneg_left c3 (by norm_num))
      have := (Rat.cast_le (K := ℝ)).2 h1
      push_cast at this
      exact this
    linarith
  · have : (v' : ℝ) ≤ 1.00001 * c := by
      have := (Rat.cast_le (K := ℝ)).2 k8
      push_cast at this
      exact this
    linarith

namespace Evl

/-- The mean of the errors of all runs of `HyperLogLogPF` at one cardinality. -/
theorem runs_tail_pf (hln : LnSpec ln) (h1 : 13 ≤ p) (h2 : p ≤ 16) {runs count t : Nat} (hr : 1 ≤ runs) (ht1 : 1 ≤ t)
    (ht2 : t ≤ count) (ht3 : t ≤ 2 ^ 26) {s : ℝ} (hs : 0 < s) :
    fraction (fun h : Fin (runs * count) → Fin (2 ^ 64) => ¬ (∑ r ∈ Finset.range runs,
      |(truncU64 (pfCount ln p ((block runs count t r).image fun v => (h v : Nat) % 2 ^ 32)) : ℝ) - t| / t) / runs <
        (1 + s) * ((2.25 / √(2 ^ p) + 0.005 + 4 / 2 ^ p) * (1 + 1.6 * 2 ^ p / t) + (if t ≤ 2 * 2 ^ p then 0 else 0.11 * 2 ^ p) / t + 1 / t)) ≤
      1 / (s ^ 2 * runs) + runs * Real.exp (-(0.078 * 2 ^ p)) := by
  have ht0 : (0 : ℝ) < t := by exact_mod_cast ht1
  set F : Finset Nat → ℚ := fun S => match pfCount ln p S with | fin q => q | _ => t with hF
  have hval : ∀ {S q}, pfCount ln p S = fin q → F S = q := fun {S q} e => by simp only [hF, e]
  have hor : ∀ S, pfCount ln p S = fin (F S) ∨ F S = t := by
    intro S
    cases e : pfCount ln p S with
    | fin q => left; rw [hval e]
    | _ => right; simp only [hF, e]
  have hx : 0 ≤ if t ≤ 2 * 2 ^ p then (0 : ℝ) else 0.11 * 2 ^ p := by split <;> positivity
  have key := runs_tail (E := fun S => fin (F S)) (w := 32) (R := runs) (count := count) hr ht1 ht2
    (lt_of_le_of_lt ht3 (by norm_num)) (B := ((2.25 / √(2 ^ p) + 0.005 + 4 / 2 ^ p) * (t + 1.6 * 2 ^ p) + (if t ≤ 2 * 2 ^ p then 0 else 0.11 * 2 ^ p))) (by positivity) hs F (fun _ => rfl)
    (pf_square hln h1 h2 ht3 fun h => hor _)
  have key' := fraction_exists (N := runs * count) (a := Real.exp (-(0.078 * 2 ^ p))) (Finset.range runs)
    (fun r h => ¬ ∃ y : ℚ, pfCount ln p ((block runs count t r).image fun v => (h v : Nat) % 2 ^ 32) = fin y)
    fun r hr => by
      have hcard := block_card (R := runs) ht2 (Finset.mem_range.1 hr)
      rw [fraction_restrict (block runs count t r) 32 fun S => ¬ ∃ y : ℚ, pfCount ln p S = fin y, hcard]
      exact pf_finite_tail hln (by omega) h2 ht3
  rw [Finset.card_range] at key'
  refine le_trans (fraction_mono fun h hh => ?_) ((fraction_or _ _).trans (add_le_add key key'))
  by_contra hcon
  rw [not_or, not_not] at hcon
  obtain ⟨a1, a2⟩ := hcon
  refine hh ?_
  rw [Finset.sum_congr rfl fun r hr => by
    rw [show pfCount ln p ((block runs count t r).image fun v => (h v : Nat) % 2 ^ 32) =
        fin (F ((block runs count t r).image fun v => (h v : Nat) % 2 ^ 32)) by
      obtain ⟨y, hy⟩ := not_not.1 fun hn => a2 ⟨r, hr, hn⟩
      rw [hval hy, hy]]]
  refine lt_of_lt_of_eq a1 ?_
  field_simp

end Evl

/-- **C93**, the mean, `HyperLogLogPF` from precision 13: as for `HyperLogLogPlus`, with 2.25 in place of 1.67, `0.11 m/t` more
above `2 m`, up to the cardinality `2^26`, and except with another `runs · exp(-0.078 m)`. -/
theorem C93_pf_mean (hln : LnSpec ln) (hcfg : cfg.usizeBits = 64) {j j' count runs : Nat} (hj : j < 2 ^ 64) (hj' : j' < 2 ^ 64)
    (hc : count ≤ 2 ^ 52) (hr : 1 ≤ runs) (hr' : runs ≤ 2 ^ 32) (h1 : 13 ≤ p) (h2 : p ≤ 16) {inp out : Text}
    (hi0 : inp ≠ []) (hiv : inp.head? ≠ some '-') (hil : inp.getLast? ≠ some '/') (ho0 : out ≠ [])
    (hov : out.head? ≠ some '-') (hol : out.getLast? ≠ some '/') (hne : inp ≠ out) {F₀ : Files Text}
    (hgi : Globbed F₀ inp []) (hgo : Globbed F₀ out []) {npMean npMedian npStd : List F64 → F64}
    (hmean : Averages npMean)
    {t : Nat} (ht1 : 1 ≤ t) (ht2 : t ≤ count) (ht3 : t ≤ 2 ^ 26) {s : ℝ} (hs : 0 < s) :
    fraction (fun h : Fin (runs * count) → Fin (2 ^ 64) => ∃ env env' res, 1 ≤ env.cpus ∧ 1 ≤ env'.cpus ∧
      (∀ r i, env.draw32 r.1 i.1 = BitVec.ofNat 32 (h (finProdFinEquiv (r, i)))) ∧
      HashesExperiment cfg ln c32 c64 npMean npMedian npStd "32".toList "hll".toList p j j' count runs inp out F₀
        env env' res ∧
      ¬ ∃ ts means medians stds, res = .ok (ts, means, medians, stds) ∧ ts[t - 1]? = some (t : ℤ) ∧
        ∃ v : ℚ, means[t - 1]? = some (fin v) ∧ (v : ℝ) < (1 + s) * (1.00001 *
          ((2.25 / √(2 ^ p) + 0.005 + 4 / 2 ^ p) * (1 + 1.6 * 2 ^ p / t) + (if t ≤ 2 * 2 ^ p then 0 else 0.11 * 2 ^ p) / t + 1 / t))) ≤
      1 / (s ^ 2 * runs) + runs * Real.exp (-(0.078 * 2 ^ p)) := by
  refine le_trans (fraction_mono fun h hh => ?_) (runs_tail_pf (count := count) hln h1 h2 hr ht1 ht2 ht3 hs)
  rintro hcon
  obtain ⟨env, env', res, he, he', hd, hres, hbad⟩ := hh
  refine hbad ?_
  obtain ⟨ts, means, medians, stds, k1, k2⟩ := reported_pf hcfg he he' hj hj' hc hr hr' (by omega) h2 hi0 hiv hil ho0 hov hol
    hne hgi hgo hmean hres (fun _ _ => rfl)
  obtain ⟨k3, ⟨v, k4, k5⟩, -⟩ := k2 t ht1 ht2
  refine ⟨ts, means, medians, stds, k1, k3, v, k4, ?_⟩
  have himg : ∀ r ∈ Finset.range runs, ((Finset.range t).image fun i => (env.draw32 r i).toNat) =
      (block runs count t r).image fun v => (h v : Nat) % 2 ^ 32 := fun r hr =>
    (block_image ht2 (Finset.mem_range.1 hr) fun r' i e => by
      subst e
      rw [hd, BitVec.toNat_ofNat]).symm
  have k6 : (v : ℝ) ≤ 1.00001 * ((∑ r ∈ Finset.range runs, |(truncU64 (pfCount ln p
      ((block runs count t r).image fun v => (h v : Nat) % 2 ^ 32)) : ℝ) - t| / t) / runs) := by
    rw [Finset.sum_congr rfl fun r hr => by rw [himg r hr]] at k5
    have := (Rat.cast_le (K := ℝ)).2 k5
    push_cast at this
    exact this
  refine k6.trans_lt ?_
  rw [show ∀ x : ℝ, (1 + s) * (1.00001 * x) = 1.00001 * ((1 + s) * x) from fun x => by ring]
  gcongr

/-- **C93**, the mean, `HyperLogLogPF` from precision 13, with a file of cardinalities. -/
theorem C93_pf_mean_at (hln : LnSpec ln) (hcfg : cfg.usizeBits = 64) {j runs : Nat} (hj : j < 2 ^ 64)
    (hr : 1 ≤ runs) (hr' : runs ≤ 2 ^ 32) (h1 : 13 ≤ p) (h2 : p ≤ 16) {M : ℤ} (hM : M ≤ 2 ^ 51) {dir out : Text}
    (hd0 : dir ≠ []) (hdv : dir.head? ≠ some '-') (hdl : dir.getLast? ≠ some '/') (ho0 : out ≠ [])
    (hov : out.head? ≠ some '-') (hol : out.getLast? ≠ some '/') (hne : dir ≠ out) {F₀ : Files Text}
    (hgo : Globbed F₀ out []) {npMean npMedian npStd : List F64 → F64} (hmean : Averages npMean)
    {N : Nat} {t : Nat} (ht1 : 1 ≤ t) (ht2 : t ≤ N) (ht3 : t ≤ 2 ^ 26) {s : ℝ} (hs : 0 < s) :
    fraction (fun h : Fin (runs * N) → Fin (2 ^ 64) => ∃ env res, 1 ≤ env.cpus ∧
      (∀ r i, env.draw32 r.1 i.1 = BitVec.ofNat 32 (h (finProdFinEquiv (r, i)))) ∧
      CardinalitiesExperiment cfg ln c32 c64 npMean npMedian npStd "hll".toList p j runs M dir out F₀ env res ∧
      ¬ ∃ fuel ts means medians stds, generateCardinalities fuel M = some (.ok ts) ∧
        res = .ok (ts, means, medians, stds) ∧ ∀ i : Nat, ts[i]? = some (t : ℤ) →
        ∃ v : ℚ, means[i]? = some (fin v) ∧ (v : ℝ) < (1 + s) * (1.00001 *
          ((2.25 / √(2 ^ p) + 0.005 + 4 / 2 ^ p) * (1 + 1.6 * 2 ^ p / t) + (if t ≤ 2 * 2 ^ p then 0 else 0.11 * 2 ^ p) / t + 1 / t))) ≤
      1 / (s ^ 2 * runs) + runs * Real.exp (-(0.078 * 2 ^ p)) := by
  refine le_trans (fraction_mono fun h hh => ?_) (runs_tail_pf (count := N) hln h1 h2 hr ht1 ht2 ht3 hs)
  rintro hcon
  obtain ⟨env, res, he, hd, hres, hbad⟩ := hh
  refine hbad ?_
  obtain ⟨fuel, ts, means, medians, stds, k0, k1, k2⟩ := reported_pf_at hcfg he hj hr hr' (by omega) h2 hM hd0 hdv hdl ho0
    hov hol hne hgo hmean hres (fun _ _ => rfl)
  refine ⟨fuel, ts, means, medians, stds, k0, k1, fun i hi => ?_⟩
  obtain ⟨-, ⟨v, k4, k5⟩, -⟩ := k2 i t hi
  refine ⟨v, k4, ?_⟩
  have himg : ∀ r ∈ Finset.range runs, ((Finset.range t).image fun i => (env.draw32 r i).toNat) =
      (block runs N t r).image fun v => (h v : Nat) % 2 ^ 32 := fun r hr =>
    (block_image ht2 (Finset.mem_range.1 hr) fun r' i e => by
      subst e
      rw [hd, BitVec.toNat_ofNat]).symm
  have k6 : (v : ℝ) ≤ 1.00001 * ((∑ r ∈ Finset.range runs, |(truncU64 (pfCount ln p
      ((block runs N t r).image fun v => (h v : Nat) % 2 ^ 32)) : ℝ) - t| / t) / runs) := by
    rw [Finset.sum_congr rfl fun r hr => by rw [himg r hr]] at k5
    have := (Rat.cast_le (K := ℝ)).2 k5
    push_cast at this
    exact this
  refine k6.trans_lt ?_
  rw [show ∀ x : ℝ, (1 + s) * (1.00001 * x) = 1.00001 * ((1 + s) * x) from fun x => by ring]
  gcongr

/-! ## Such experiments exist -/

namespace Evl

/-- A command changes finitely many files. -/
theorem completes_finite {plan : Option (R Plan)} {F F' : Files Text} (h : Completes plan F F') :
    ∃ S : List Text, ∀ a, a ∉ S → F' a = F a := by
  obtain ⟨-, rfl⟩ | ⟨jobs, n, T, k, c, -, hx, -, rfl⟩ := h
  · exact ⟨[], fun _ _ => rfl⟩
  refine ⟨List.ofFn fun i => (T i).output, fun a ha => ?_⟩
  have ha' : ∀ i, a ≠ (T i).output := fun i e => ha (List.mem_ofFn.2 ⟨i, e.symm⟩)
  have key : ∀ {k c₀ c}, Exec T jobs k c₀ c → c.files a = c₀.files a := by
    intro k c₀ c hx
    induction hx with
    | refl => rfl
    | step _ hn ih =>
      obtain ⟨i, F, s, hcall, rfl, -⟩ := hn
      rw [← ih]
      show F a = _
      generalize Config.stage _ i = st at hcall
      cases hcall <;> first | rfl | exact Function.update_of_ne (ha' i) _ _
  exact key hx

/-- The files that match can be listed again afterwards. -/
theorem glob_again {plan : Option (R Plan)} {F F' : Files Text} (h : Completes plan F F') {dir : Text} {L : List Text}
    (hL : Globbed F dir L) : ∃ L', Globbed F' dir L' := by
  classical
  obtain ⟨S, hS⟩ := completes_finite h
  refine ⟨((L ++ S).dedup).filter fun path => decide (F' path ≠ none ∧ ∃ name : Text, path = dir ++ '/' :: name ∧
    '/' ∉ name ∧ name.head? ≠ some '.' ∧ ".dat".toList <:+ name), (List.nodup_dedup _).filter _, fun path => ?_⟩
  rw [List.mem_filter, List.mem_dedup, List.mem_append, decide_eq_true_iff]
  refine ⟨fun h => h.2, fun h => ⟨?_, h⟩⟩
  by_cases hp : path ∈ S
  · exact .inr hp
  · exact .inl ((hL.2 path).2 ⟨by rw [← hS path hp]; exact h.1, h.2⟩)

end Evl

/-- **C93**, such experiments exist: whatever the random numbers are, the experiment takes place. -/
theorem C93_plus_happens (hcfg : cfg.usizeBits = 64) {j j' count runs : Nat} (hj : j < 2 ^ 64) (hj' : j' < 2 ^ 64)
    (hc : count ≤ 2 ^ 52) (hr : 1 ≤ runs) (hr' : runs < 2 ^ 64) (h1 : 4 ≤ p) (h2 : p ≤ 18) {inp out : Text}
    (hi0 : inp ≠ []) (hiv : inp.head? ≠ some '-') (hil : inp.getLast? ≠ some '/') (ho0 : out ≠ [])
    (hov : out.head? ≠ some '-') (hol : out.getLast? ≠ some '/') (hne : inp ≠ out) {F₀ : Files Text}
    (hgi : Globbed F₀ inp []) (hgo : Globbed F₀ out []) (npMean npMedian npStd : List F64 → F64) (draw : Fin runs → Fin count → BitVec 64) :
    ∃ env env' res, 1 ≤ env.cpus ∧ 1 ≤ env'.cpus ∧ (∀ r i, env.draw64 r.1 i.1 = draw r i) ∧
      HashesExperiment cfg ln c32 c64 npMean npMedian npStd "64".toList "hllp".toList p j j' count runs inp out F₀
        env env' res := by
  let env : Env := ⟨1, fun _ _ => 0, fun r i => if h : r < runs ∧ i < count then draw ⟨r, h.1⟩ ⟨i, h.2⟩ else 0, fun _ _ => (.id, .id)⟩
  obtain ⟨k1, k2⟩ := C90_plus_hashes (cfg := cfg) (ln := ln) (mean := npMean) (median := npMedian) (std := npStd) hcfg c32 c64 env env
    le_rfl le_rfl hj hj' hc hr hr' h1 h2 hi0 hiv hil ho0 hov hol hne hgi hgo
  obtain ⟨F₁, hF₁⟩ := k1.completes
  obtain ⟨L, hL⟩ := glob_again hF₁ hgi
  obtain ⟨F₂, hF₂⟩ := (k2 F₁ L hF₁ hL).1.completes
  obtain ⟨L₁, hL₁⟩ := glob_again hF₁ hgo
  obtain ⟨L', hL'⟩ := glob_again hF₂ hL₁
  exact ⟨env, env, _, le_rfl, le_rfl, fun r i => by simp [env], F₁, L, F₂, L', hF₁, hL, hF₂, hL', rfl⟩

/-- **C93**, such experiments exist: whatever the random numbers are, the experiment takes place. -/
theorem C93_pf_happens (hcfg : cfg.usizeBits = 64) {j j' count runs : Nat} (hj : j < 2 ^ 64) (hj' : j' < 2 ^ 64)
    (hc : count ≤ 2 ^ 52) (hr : 1 ≤ runs) (hr' : runs < 2 ^ 64) (h1 : 4 ≤ p) (h2 : p ≤ 16) {inp out : Text}
    (hi0 : inp ≠ []) (hiv : inp.head? ≠ some '-') (hil : inp.getLast? ≠ some '/') (ho0 : out ≠ [])
    (hov : out.head? ≠ some '-') (hol : out.getLast? ≠ some '/') (hne : inp ≠ out) {F₀ : Files Text}
    (hgi : Globbed F₀ inp []) (hgo : Globbed F₀ out []) (npMean npMedian npStd : List F64 → F64) (draw : Fin runs → Fin count → BitVec 32) :
    ∃ env env' res, 1 ≤ env.cpus ∧ 1 ≤ env'.cpus ∧ (∀ r i, env.draw32 r.1 i.1 = draw r i) ∧
      HashesExperiment cfg ln c32 c64 npMean npMedian npStd "32".toList "hll".toList p j j' count runs inp out F₀
        env env' res := by
  let env : Env := ⟨1, fun r i => if h : r < runs ∧ i < count then draw ⟨r, h.1⟩ ⟨i, h.2⟩ else 0, fun _ _ => 0, fun _ _ => (.id, .id)⟩
  obtain ⟨k1, k2⟩ := C90_pf_hashes (cfg := cfg) (ln := ln) (mean := npMean) (median := npMedian) (std := npStd) hcfg c32 c64 env env
    le_rfl le_rfl hj hj' hc hr hr' h1 h2 hi0 hiv hil ho0 hov hol hne hgi hgo
  obtain ⟨F₁, hF₁⟩ := k1.completes
  obtain ⟨L, hL⟩ := glob_again hF₁ hgi
  obtain ⟨F₂, hF₂⟩ := (k2 F₁ L hF₁ hL).1.completes
  obtain ⟨L₁, hL₁⟩ := glob_again hF₁ hgo
  obtain ⟨L', hL'⟩ := glob_again hF₂ hL₁
  exact ⟨env, env, _, le_rfl, le_rfl, fun r i => by simp [env], F₁, L, F₂, L', hF₁, hL, hF₂, hL', rfl⟩

/-- **C93**, such experiments exist, with a file of cardinalities. -/
theorem C93_plus_happens_at (hcfg : cfg.usizeBits = 64) {j runs : Nat} (hj : j < 2 ^ 64)
    (hr : 1 ≤ runs) (hr' : runs < 2 ^ 64) (h1 : 4 ≤ p) (h2 : p ≤ 18) {M : ℤ} (hM : M ≤ 2 ^ 51) {dir out : Text} (hd0 : dir ≠ [])
    (hdv : dir.head? ≠ some '-') (hdl : dir.getLast? ≠ some '/') (ho0 : out ≠ []) (hov : out.head? ≠ some '-')
    (hol : out.getLast? ≠ some '/') (hne : dir ≠ out) {F₀ : Files Text} (hgo : Globbed F₀ out [])
    (npMean npMedian npStd : List F64 → F64)
    {N : Nat} (draw : Fin runs → Fin N → BitVec 64) :
    ∃ env res, 1 ≤ env.cpus ∧ (∀ r i, env.draw64 r.1 i.1 = draw r i) ∧
      CardinalitiesExperiment cfg ln c32 c64 npMean npMedian npStd "hllp".toList p j runs M dir out F₀ env res := by
  let env : Env := ⟨1, fun _ _ => 0, fun r i => if h : r < runs ∧ i < N then draw ⟨r, h.1⟩ ⟨i, h.2⟩ else 0, fun _ _ => (.id, .id)⟩
  obtain ⟨ts, fuel, g, k1, -⟩ := C90_plus_cardinalities (cfg := cfg) (ln := ln) (mean := npMean) (median := npMedian)
    (std := npStd) hcfg c32 c64 env le_rfl hj hr hr' h1 h2 hM hd0 hdv hdl ho0 hov hol hne hgo
  obtain ⟨F₂, hF₂⟩ := k1.completes
  obtain ⟨L', hL'⟩ := glob_again hF₂ (L := []) (glob_same hgo fun name hn => by
    rw [prepareCardinalities, Function.update_of_ne]
    rw [cardinalitiesPath, join_plain hd0 hdl]
    intro e
    exact hne (slash_inj hn (by decide) e).1.symm)
  exact ⟨env, _, le_rfl, fun r i => by simp [env], fuel, _, F₂, L', g, hF₂, hL', rfl⟩

/-- **C93**, such experiments exist, with a file of cardinalities. -/
theorem C93_pf_happens_at (hcfg : cfg.usizeBits = 64) {j runs : Nat} (hj : j < 2 ^ 64)
    (hr : 1 ≤ runs) (hr' : runs < 2 ^ 64) (h1 : 4 ≤ p) (h2 : p ≤ 16) {M : ℤ} (hM : M ≤ 2 ^ 51) {dir out : Text} (hd0 : dir ≠ [])
    (hdv : dir.head? ≠ some '-') (hdl : dir.getLast? ≠ some '/') (ho0 : out ≠ []) (hov : out.head? ≠ some '-')
    (hol : out.getLast? ≠ some '/') (hne : dir ≠ out) {F₀ : Files Text} (hgo : Globbed F₀ out [])
    (npMean npMedian npStd : List F64 → F64)
    {N : Nat} (draw : Fin runs → Fin N → BitVec 32) :
    ∃ env res, 1 ≤ env.cpus ∧ (∀ r i, env.draw32 r.1 i.1 = draw r i) ∧
      CardinalitiesExperiment cfg ln c32 c64 npMean npMedian npStd "hll".toList p j runs M dir out F₀ env res := by
  let env : Env := ⟨1, fun r i => if h : r < runs ∧ i < N then draw ⟨r, h.1⟩ ⟨i, h.2⟩ else 0, fun _ _ => 0, fun _ _ => (.id, .id)⟩
  obtain ⟨ts, fuel, g, k1, -⟩ := C90_pf_cardinalities (cfg := cfg) (ln := ln) (mean := npMean) (median := npMedian)
    (std := npStd) hcfg c32 c64 env le_rfl hj hr hr' h1 h2 hM hd0 hdv hdl ho0 hov hol hne hgo
  obtain ⟨F₂, hF₂⟩ := k1.completes
  obtain ⟨L', hL'⟩ := glob_again hF₂ (L := []) (glob_same hgo fun name hn => by
    rw [prepareCardinalities, Function.update_of_ne]
    rw [cardinalitiesPath, join_plain hd0 hdl]
    intro e
    exact hne (slash_inj hn (by decide) e).1.symm)
  exact ⟨env, _, le_rfl, fun r i => by simp [env], fuel, _, F₂, L', g, hF₂, hL', rfl⟩

/-! ## Examples -/

/-- The exact mean, and the largest element in place of the median, meet the hypotheses. -/
example : ∃ npMean npMedian, Averages npMean ∧ AtMostLargest npMedian := by
  classical
  have hinj : Function.Injective fin := fun a b e => by cases e; rfl
  refine ⟨fun l => if h : ∃ xs : List ℚ, l = xs.map fin then fin (h.choose.sum / h.choose.length) else .nan,
    fun l => if h : ∃ xs : List ℚ, l = xs.map fin then fin (h.choose.foldr max 0) else .nan, ?_, ?_⟩
  · intro xs h0 hl hx
    have h : ∃ ys : List ℚ, xs.map fin = ys.map fin := ⟨xs, rfl⟩
    refine ⟨_, dif_pos h, ?_⟩
    rw [← List.map_injective_iff.2 hinj h.choose_spec, sub_self, abs_zero]
    have := List.sum_nonneg fun x hm => (hx x hm).1
    positivity
  · intro xs a h0 ha hx
    have h : ∃ ys : List ℚ, xs.map fin = ys.map fin := ⟨xs, rfl⟩
    refine ⟨_, dif_pos h, ?_⟩
    rw [← List.map_injective_iff.2 hinj h.choose_spec]
    clear h
    induction xs with
    | nil => exact absurd rfl h0
    | cons x xs ih =>
      obtain ⟨k1, k2⟩ := hx x (by simp)
      refine max_le k2 ?_
      by_cases hn : xs = []
      · subst hn
        exact k1.trans k2
      · exact ih hn fun y hy => hx y (by simp [hy])

/-- 5000 runs with precision 14 up to cardinality 100000, started in an empty directory: with probability at least 98% the mean
error that is reported for 100000 is below 1.1%. -/
example (hln : LnSpec ln) {npMean npMedian npStd : List F64 → F64} (hmean : Averages npMean) :
    fraction (fun h : Fin (5000 * 100000) → Fin (2 ^ 64) => ∃ env env' res, 1 ≤ env.cpus ∧ 1 ≤ env'.cpus ∧
      (∀ r i, env.draw64 r.1 i.1 = BitVec.ofNat 64 (h (finProdFinEquiv (r, i)))) ∧
      HashesExperiment Cfg.debug64 ln c32 c64 npMean npMedian npStd "64".toList "hllp".toList 14 4 4 100000 5000
        "data".toList "out".toList (fun _ => none) env env' res ∧
      ¬ ∃ ts means medians stds, res = .ok (ts, means, medians, stds) ∧ ts[99999]? = some 100000 ∧
        ∃ v : ℚ, means[99999]? = some (fin v) ∧ (v : ℝ) < 0.011) ≤ 0.02 := by
  have hg : ∀ d, Globbed (fun _ => none) d [] := fun d => ⟨List.nodup_nil, by simp⟩
  refine le_trans (fraction_mono fun h hh => ?_) ((C93_plus_mean_large (cfg := Cfg.debug64) (c32 := c32) (c64 := c64) (p := 14) hln rfl
    (j := 4) (j' := 4) (count := 100000) (runs := 5000) (by norm_num) (by norm_num) (by norm_num) (by norm_num) (by norm_num) (by norm_num)
    (by norm_num) (inp := "data".toList) (out := "out".toList) (by decide) (by decide) (by decide) (by decide) (by decide) (by decide)
    (by decide) (hg _) (hg _) (npMedian := npMedian) (npStd := npStd) hmean (t := 100000) (by norm_num) (by norm_num) (by norm_num) (s := 0.1)
    (by norm_num)).trans (by norm_num))
  obtain ⟨env, env', res, a1, a2, a3, a4, a5⟩ := hh
  refine ⟨env, env', res, a1, a2, a3, a4, ?_⟩
  rintro ⟨ts, means, medians, stds, b1, b2, v, b3, b4⟩
  refine a5 ⟨ts, means, medians, stds, b1, by simpa using b2, v, b3, b4.trans ?_⟩
  rw [show √((2 : ℝ) ^ 14) = 2 ^ 7 by rw [show (2 : ℝ) ^ 14 = (2 ^ 7) ^ 2 by norm_num]; exact Real.sqrt_sq (by norm_num)]
  norm_num

/-- 100 runs with precision 18 and 1000000 hashes each: with probability at least `1 - 10^-11`, all the means and medians that are
reported for cardinalities from 700000 on are below 10%. -/
example (hln : LnSpec ln) {npMean npMedian npStd : List F64 → F64} (hmean : Averages npMean) (hmed : AtMostLargest npMedian) :
    fraction (fun h : Fin (100 * 1000000) → Fin (2 ^ 64) => ∃ env env' res, 1 ≤ env.cpus ∧ 1 ≤ env'.cpus ∧
      (∀ r i, env.draw64 r.1 i.1 = BitVec.ofNat 64 (h (finProdFinEquiv (r, i)))) ∧
      HashesExperiment Cfg.debug64 ln c32 c64 npMean npMedian npStd "64".toList "hllp".toList 18 4 4 1000000 100
        "data".toList "out".toList (fun _ => none) env env' res ∧
      ¬ ∃ ts means medians stds, res = .ok (ts, means, medians, stds) ∧ ∀ t : Nat, 700000 ≤ t → t ≤ 1000000 →
        ts[t - 1]? = some (t : ℤ) ∧ ∃ v v' : ℚ, means[t - 1]? = some (fin v) ∧ medians[t - 1]? = some (fin v') ∧
          max (v : ℝ) v' ≤ 0.1) ≤ 1 / 10 ^ 11 := by
  have hg : ∀ d, Globbed (fun _ => none) d [] := fun d => ⟨List.nodup_nil, by simp⟩
  refine le_trans (fraction_mono fun h hh => ?_) ((C93_plus_all (cfg := Cfg.debug64) (c32 := c32) (c64 := c64) (p := 18) hln
    rfl (j := 4) (j' := 4) (count := 1000000) (runs := 100) (by norm_num) (by norm_num) (by norm_num) (by norm_num)
    (by norm_num) (by norm_num) (by norm_num) (inp := "data".toList) (out := "out".toList) (by decide) (by decide) (by decide)
    (by decide) (by decide) (by decide) (by decide) (hg _) (hg _) (npMedian := npMedian) (npStd := npStd) hmean hmed
    (δ := 0.05) (by norm_num) (by norm_num)).trans ?_)
  · obtain ⟨env, env', res, a1, a2, a3, a4, a5⟩ := hh
    refine ⟨env, env', res, a1, a2, a3, a4, ?_⟩
    rintro ⟨ts, means, medians, stds, b1, b2⟩
    refine a5 ⟨ts, means, medians, stds, b1, fun t t1 t2 => ?_⟩
    obtain ⟨b3, v, v', b4, b5, b6⟩ := b2 t (by omega) t2
    refine ⟨b3, v, v', b4, b5, b6.trans ?_⟩
    have ht : (700000 : ℝ) ≤ t := by exact_mod_cast t1
    have e1 : 1.6 * 2 ^ 18 / (t : ℝ) ≤ 1.6 * 2 ^ 18 / 700000 := by gcongr
    have e2 : 1 / (t : ℝ) ≤ 1 / 700000 := by gcongr
    norm_num at e1 e2 ⊢
    linarith
  · have h1 : Real.exp (-(2 ^ 18 * 0.05 ^ 2 / 4)) ≤ 1 / 2 ^ 100 := by
      rw [one_div, Real.exp_neg]
      refine inv_anti₀ (by positivity) ?_
      calc (2 : ℝ) ^ 100 ≤ Real.exp 1 ^ 100 := by
            gcongr
            exact (by norm_num : (2 : ℝ) ≤ 2.7).trans (le_of_lt (lt_trans (by norm_num) Real.exp_one_gt_d9))
        _ = Real.exp 100 := by rw [← Real.exp_nat_mul]; norm_num
        _ ≤ _ := Real.exp_le_exp.2 (by norm_num)
    calc _ ≤ ((100 : ℕ) : ℝ) * ((1000000 : ℕ) : ℝ) * (6 * (1 / 2 ^ 100)) := by gcongr
      _ ≤ 1 / 10 ^ 11 := by norm_num

/-- 100 runs of `HyperLogLogPF` with precision 16 on a file of cardinalities up to about a million: with probability at least
`1 - 10^-5`, all the means and medians that are reported for cardinalities from 200000 on are below 20%. -/
example (hln : LnSpec ln) {npMean npMedian npStd : List F64 → F64} (hmean : Averages npMean) (hmed : AtMostLargest npMedian) :
    fraction (fun h : Fin (100 * 1100000) → Fin (2 ^ 64) => ∃ env res, 1 ≤ env.cpus ∧
      (∀ r i, env.draw32 r.1 i.1 = BitVec.ofNat 32 (h (finProdFinEquiv (r, i)))) ∧
      CardinalitiesExperiment Cfg.debug64 ln c32 c64 npMean npMedian npStd "hll".toList 16 4 100 1000000 "data".toList
        "out".toList (fun _ => none) env res ∧
      ¬ ∃ fuel ts means medians stds, generateCardinalities fuel 1000000 = some (.ok ts) ∧
        res = .ok (ts, means, medians, stds) ∧ ∀ (i t : Nat), ts[i]? = some (t : ℤ) → 200000 ≤ t → t ≤ 1100000 →
        ∃ v v' : ℚ, means[i]? = some (fin v) ∧ medians[i]? = some (fin v') ∧ max (v : ℝ) v' ≤ 0.2) ≤ 1 / 10 ^ 5 := by
  have hg : ∀ d, Globbed (fun _ => none) d [] := fun d => ⟨List.nodup_nil, by simp⟩
  refine le_trans (fraction_mono fun h hh => ?_) ((C93_pf_all_at (cfg := Cfg.debug64) (c32 := c32) (c64 := c64) (p := 16) hln
    rfl (j := 4) (runs := 100) (by norm_num) (by norm_num) (by norm_num) (by norm_num) (by norm_num) (M := 1000000)
    (by norm_num) (dir := "data".toList) (out := "out".toList) (by decide) (by decide) (by decide)
    (by decide) (by decide) (by decide) (by decide) (hg _) (npMedian := npMedian) (npStd := npStd) hmean hmed
    (N := 1100000) (by norm_num) (δ := 0.07) (by norm_num) (by norm_num) (by norm_num)).trans ?_)
  · obtain ⟨env, res, a1, a3, a4, a5⟩ := hh
    refine ⟨env, res, a1, a3, a4, ?_⟩
    rintro ⟨fuel, ts, means, medians, stds, b0, b1, b2⟩
    refine a5 ⟨fuel, ts, means, medians, stds, b0, b1, fun i t hi t1 t2 => ?_⟩
    obtain ⟨v, v', b4, b5, b6⟩ := b2 i t hi t2
    refine ⟨v, v', b4, b5, b6.trans ?_⟩
    have ht : (200000 : ℝ) ≤ t := by exact_mod_cast t1
    rw [if_neg (by omega)]
    have e1 : 1.6 * 2 ^ 16 / (t : ℝ) ≤ 1.6 * 2 ^ 16 / 200000 := by gcongr
    have e2 : 1 / (t : ℝ) ≤ 1 / 200000 := by gcongr
    have e3 : 0.11 * 2 ^ 16 / (t : ℝ) ≤ 0.11 * 2 ^ 16 / 200000 := by gcongr
    norm_num at e1 e2 e3 ⊢
    linarith
  · have h1 : Real.exp (-(2 ^ 16 * 0.07 ^ 2 / 6)) ≤ 1 / 2 ^ 50 := by
      rw [one_div, Real.exp_neg]
      refine inv_anti₀ (by positivity) ?_
      calc (2 : ℝ) ^ 50 ≤ Real.exp 1 ^ 50 := by
            gcongr
            exact (by norm_num : (2 : ℝ) ≤ 2.7).trans (le_of_lt (lt_trans (by norm_num) Real.exp_one_gt_d9))
        _ = Real.exp 50 := by rw [← Real.exp_nat_mul]; norm_num
        _ ≤ _ := Real.exp_le_exp.2 (by norm_num)
    calc _ ≤ ((100 : ℕ) : ℝ) * ((1100000 : ℕ) : ℝ) * (4 * (1 / 2 ^ 50)) := by gcongr
      _ ≤ 1 / 10 ^ 5 := by norm_num

/-- Such an experiment, for any random numbers. -/
example (draw : Fin 100 → Fin 1100000 → BitVec 32) (f : List F64 → F64) : ∃ env res, 1 ≤ env.cpus ∧
    (∀ r i, env.draw32 r.1 i.1 = draw r i) ∧ CardinalitiesExperiment Cfg.debug64 ln c32 c64 f f f "hll".toList 16 4 100
      1000000 "data".toList "out".toList (fun _ => none) env res :=
  C93_pf_happens_at (cfg := Cfg.debug64) rfl (by norm_num) (by norm_num) (by norm_num) (by norm_num) (by norm_num)
    (by norm_num) (by decide) (by decide) (by decide) (by decide) (by decide) (by decide) (by decide)
    ⟨List.nodup_nil, by simp⟩ f f f draw

end HLL
