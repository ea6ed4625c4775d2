import Verif.Props.State
import Verif.Proofs.PFNum

/-!
# Properties of the numbers returned by `count`: C23, C24, C26, C27

All theorems hold for any logarithm that meets `LnSpec` (`SpecLn.lean`): relative error at most
`2^-40`.  Doubles are written `fin q`, where `q` is their exact rational value; `fin 0` is `+0.0`.
-/

namespace HLL
open Spec F64

variable {I : Type} {cfg : Cfg} {ln : F64 → F64} {c : Serde.Codec I}
  {ords : Nat → IterOrder × IterOrder} {ops : List (Op I)} {i : Nat}

/-- The hypothesis on the logarithm can be met. -/
example : ∃ ln, LnSpec ln := ⟨lnRound, lnRound_spec⟩

theorem plus_count_val (h : Supported cfg c ops) {a : Abs I}
    (ha : (contents 64 18 ops)[i]? = some a) :
    later (Plus.api cfg ln c) ords ops [.count i] = .ok [.count (plusCount ln (Plus.biasOf cfg.search) a.p a.S)] :=
  (Plus.implements cfg ln c).count_val ords (h.append (by simp) (by simp)) ha

theorem pf_count_val (h : Supported cfg c ops) {a : Abs I}
    (ha : (contents 32 16 ops)[i]? = some a) :
    later (PF.api cfg ln c) ords ops [.count i] = .ok [.count (pfCount ln a.p a.S)] :=
  (PF.implements cfg ln c).count_val ords (h.append (by simp) (by simp)) ha

theorem mem_of_get {α : Type} {l : List α} {i : Nat} {a : α} (h : l[i]? = some a) : a ∈ l :=
  List.mem_of_getElem? h

/-! ## C23: empty sketches -/

/-- **C23.** A `HyperLogLogPlus` into which nothing was ever inserted counts exactly `0.0`,
whatever else was done with it. -/
theorem C23_plus_empty (hln : LnSpec ln) (h : Supported cfg c ops) (hn : NoInsert ops) {a : Abs I}
    (ha : (contents 64 18 ops)[i]? = some a) :
    later (Plus.api cfg ln c) ords ops [.count i] = .ok [.count (fin 0)] := by
  have hv := contents_valid 64 18 ops a (mem_of_get ha)
  have hS := contents_noInsert 64 18 hn a (mem_of_get ha)
  obtain ⟨y, h1, _, _, h2⟩ := plusCount_value hln hv.1 hv.2.1 hv.2.2
  rw [plus_count_val h ha, h1, h2 hS]

/-- **C23** for `HyperLogLogPF`. -/
theorem C23_pf_empty (hln : LnSpec ln) (h : Supported cfg c ops) (hn : NoInsert ops) {a : Abs I}
    (ha : (contents 32 16 ops)[i]? = some a) :
    later (PF.api cfg ln c) ords ops [.count i] = .ok [.count (fin 0)] := by
  have hv := contents_valid 32 16 ops a (mem_of_get ha)
  have hS := contents_noInsert 32 16 hn a (mem_of_get ha)
  rw [pf_count_val h ha, pfCount, pfDense_zero hln hv.1 hv.2.1 (regs_regs _ (by omega))]
  rw [count_zero_regs, hS, zeros_empty]

example : NoInsert ([.new 7 (fun _ => 3), .new 7 (fun _ => 4), .merge 0 1, .count 0, .clone 0] :
    List (Op Nat)) ∧ ∃ a, (contents 64 18 ([.new 7 (fun _ => 3), .new 7 (fun _ => 4), .merge 0 1,
      .count 0, .clone 0] : List (Op Nat)))[2]? = some a :=
  ⟨by simp [NoInsert], _, rfl⟩

/-- **C23.** A `HyperLogLogPlus` that has seen at least one value counts strictly more than 0. -/
theorem C23_plus_nonempty (hln : LnSpec ln) (h : Supported cfg c ops) {a : Abs I}
    (ha : (contents 64 18 ops)[i]? = some a) (hS : a.S.Nonempty) :
    ∃ y : ℚ, later (Plus.api cfg ln c) ords ops [.count i] = .ok [.count (fin y)] ∧ 0 < y := by
  have hv := contents_valid 64 18 ops a (mem_of_get ha)
  obtain ⟨y, h1, _, h2, _⟩ := plusCount_value hln hv.1 hv.2.1 hv.2.2
  exact ⟨y, by rw [plus_count_val h ha, h1], h2 hS⟩

example : ∃ a, (contents 64 18 demoPlus)[0]? = some a ∧ a.S.Nonempty := ⟨_, rfl, by decide⟩

/-! ## C24: sparse mode -/

/-- **C24.** If a sketch is still sparse after counting and holds `n ≥ 1` codes then the returned
estimate `y` satisfies `n ≤ y ≤ n·2^24/(2^24 - n)`; for `n ≤ 5000` its integer part is `n`.
`n` is the number of different codes among the hashes seen. -/
theorem C24_sparse_accurate (hln : LnSpec ln) (h : Supported cfg c ops) {s : Plus I} {a : Abs I}
    (hr : ReachPlus cfg ln c ords ops i s a) {ord : IterOrder} {s' : Plus I} {x : F64}
    (hc : Plus.count cfg ln ord s = .ok (s', x)) (hsp : s'.isSparse = true)
    (hne : a.S.Nonempty) :
    s'.sparse.count = (codes a.p a.S).card ∧ 1 ≤ s'.sparse.count ∧
    ∃ y : ℚ, x = fin y ∧ (s'.sparse.count : ℚ) ≤ y ∧
      y ≤ s'.sparse.count * 2 ^ 24 / (2 ^ 24 - s'.sparse.count) ∧
      (s'.sparse.count ≤ 5000 → ⌊y⌋ = s'.sparse.count) := by
  obtain ⟨h1, _, h3⟩ := hr.means h
  obtain ⟨s'', e1, ⟨hb, e2⟩, e3⟩ := Plus.count_ok cfg h.bits ln ord (fun _ => h3) h1
  rw [hc] at e1
  cases e1
  rcases e2 with ⟨L, h4, h5, h6⟩ | ⟨r, h4⟩
  · have hn := h4.count_eq h5
    have hcard := card_le_encSize (codes a.p a.S)
    have hcap := capacity_le hb.hp2
    have hf := h6
    unfold fitsSparse at hf
    have hpos : 0 < (codes a.p a.S).card := Finset.card_pos.2 (hne.image _)
    obtain ⟨y, k1, k2, k3, k4⟩ := sparse_bounds hln hpos (by omega)
    rw [hn]
    refine ⟨rfl, hpos, y, ?_, k2, k3, fun h => ?_⟩
    · rw [plusCount, if_pos h6, k1]
    · rw [Int.floor_eq_iff]
      exact ⟨by exact_mod_cast k2, by exact_mod_cast k4 h⟩
  · simp [Plus.isSparse, h4.regs] at hsp

/-- **C24.** If the hashes seen differ in their upper 25 bits, the number of codes is the number
of hashes, so the estimate is accurate for the number of hashes. -/
theorem C24_codes_are_hashes {p : Nat} {S : Finset Nat}
    (h : ∀ x ∈ S, ∀ y ∈ S, x / 2 ^ 39 = y / 2 ^ 39 → x = y) : (codes p S).card = S.card := by
  apply Finset.card_image_of_injOn
  intro x hx y hy hxy
  apply h x hx y hy
  have a1 := firstOne_le 39 x
  have a2 := firstOne_le 39 y
  simp only [code] at hxy
  generalize x / 2 ^ 39 = u at *
  generalize y / 2 ^ 39 = v at *
  by_cases e : u % 2 ^ (25 - p) = 0 <;> by_cases e' : v % 2 ^ (25 - p) = 0
  · rw [if_pos e, if_pos e'] at hxy; omega
  · rw [if_pos e, if_neg e'] at hxy; omega
  · rw [if_neg e, if_pos e'] at hxy; omega
  · rw [if_neg e, if_neg e'] at hxy; omega

/-- A program that makes a sketch of precision 4 holding two codes. -/
def demoSparse : List (Op Nat) :=
  [.new 4 (fun v => BitVec.ofNat 64 v), .insert .insert 0 7, .insert .insert 0 (2 ^ 63)]

/-- A reachable sketch that is sparse after counting. -/
example : ∃ s a s' x,
    ReachPlus Cfg.debug64 id (noCodec Nat) (fun _ => (IterOrder.id, IterOrder.id)) demoSparse 0 s a ∧
    Plus.count Cfg.debug64 id IterOrder.id s = .ok (s', x) ∧ s'.isSparse = true ∧
    a.S.Nonempty := by
  have h : (match run (Plus.api Cfg.debug64 id (noCodec Nat))
        (fun _ => (IterOrder.id, IterOrder.id)) 0 [] demoSparse with
      | .ok (st, _) => match st[0]? with
        | some s => match Plus.count Cfg.debug64 id IterOrder.id s with
          | .ok (s', _) => s'.isSparse
          | .error _ => false
        | none => false
      | .error _ => false) = true := by decide +kernel
  obtain ⟨s, st, os, h1, h2, h3⟩ := reachPlus_exists (ln := id) (i := 0)
    (ords := fun _ => (IterOrder.id, IterOrder.id))
    (supported64 (cfg := Cfg.debug64) rfl (noCodec Nat) (ops := demoSparse) (by simp [demoSparse])) rfl
  rw [h1] at h
  simp only [h2] at h
  cases hc : Plus.count Cfg.debug64 id IterOrder.id s with
  | error e => simp [hc] at h
  | ok r =>
    simp only [hc] at h
    exact ⟨s, _, r.1, r.2, ⟨st, os, h1, h2, h3⟩, hc, h, by decide⟩

/-! ## C26: `HyperLogLogPlus::count` is finite -/

/-- **C26.** Every `count` of a `HyperLogLogPlus` is a finite double that is not negative. -/
theorem C26_plus_finite (hln : LnSpec ln) (h : Supported cfg c ops) {a : Abs I}
    (ha : (contents 64 18 ops)[i]? = some a) :
    ∃ y : ℚ, later (Plus.api cfg ln c) ords ops [.count i] = .ok [.count (fin y)] ∧ 0 ≤ y := by
  have hv := contents_valid 64 18 ops a (mem_of_get ha)
  obtain ⟨y, h1, h2, _⟩ := plusCount_value hln hv.1 hv.2.1 hv.2.2
  exact ⟨y, by rw [plus_count_val h ha, h1], h2⟩

/-- **C26.** No output of any program is NaN or infinite: each `count` output is finite and
not negative. -/
theorem C26_plus_all_outputs (hln : LnSpec ln) (h : Supported cfg c ops) :
    ∃ os, outputs (Plus.api cfg ln c) ords ops = .ok os ∧
      ∀ x, Out.count x ∈ os → ∃ y : ℚ, x = fin y ∧ 0 ≤ y := by
  refine ⟨_, plus_refines h, ?_⟩
  have key : ∀ (ops : List (Op I)) (st : List (Abs I)),
      (∀ a ∈ st, 4 ≤ a.p ∧ a.p ≤ 18 ∧ ∀ h ∈ a.S, h < 2 ^ 64) →
      ∀ x, Out.count x ∈ expectedFrom 64 18 (plusCount ln (Plus.biasOf cfg.search)) st ops →
        ∃ y : ℚ, x = fin y ∧ 0 ≤ y := by
    intro ops
    induction ops with
    | nil => intro st _ x hx; simp [expectedFrom] at hx
    | cons op ops ih =>
      intro st hst x hx
      rw [expectedFrom, List.mem_cons] at hx
      rcases hx with hx | hx
      · cases op with
        | count j =>
          simp only [observe] at hx
          cases hj : st[j]? with
          | none => simp [hj] at hx
          | some s =>
            have hv := hst s (mem_of_get hj)
            obtain ⟨y, h1, h2, _⟩ := plusCount_value hln hv.1 hv.2.1 hv.2.2
            simp only [hj, Out.count.injEq] at hx
            exact ⟨y, by rw [hx, h1], h2⟩
        | new p b => simp only [observe] at hx; split at hx <;> cases hx
        | clone j => simp only [observe] at hx; split at hx <;> cases hx
        | insert k j v => simp only [observe] at hx; split at hx <;> cases hx
        | merge j k =>
          simp only [observe] at hx
          split at hx
          · split at hx <;> cases hx
          · cases hx
        | reload j => simp only [observe] at hx; split at hx <;> cases hx
      · exact ih _ (contentsFrom_valid 64 18 [op] st hst) x hx
  exact key ops [] (by simp)

/-! ## C27: `HyperLogLogPF::count` -/

/-- **C27, complete description.** With `raw` the raw estimate of the sketch (a finite double),
`count` of a `HyperLogLogPF` is finite and not negative if `raw < 2^32`, infinite if
`raw = 2^32`, and NaN if `raw > 2^32`. -/
theorem C27_pf_value (hln : LnSpec ln) (h : Supported cfg c ops) {a : Abs I}
    (ha : (contents 32 16 ops)[i]? = some a) :
    ∃ raw : ℚ, rawEstimate a.p (regs 32 a.p a.S) = fin raw ∧
    (raw < 2 ^ 32 →
      ∃ y : ℚ, later (PF.api cfg ln c) ords ops [.count i] = .ok [.count (fin y)] ∧ 0 ≤ y) ∧
    (raw = 2 ^ 32 → later (PF.api cfg ln c) ords ops [.count i] = .ok [.count (inf false)]) ∧
    (2 ^ 32 < raw → later (PF.api cfg ln c) ords ops [.count i] = .ok [.count nan]) := by
  have hv := contents_valid 32 16 ops a (mem_of_get ha)
  have hM : Regs a.p (regs 32 a.p a.S) := regs_regs _ (by omega)
  obtain ⟨k1, k2, k3⟩ := pfDense_value hln hv.1 hv.2.1 hM
  refine ⟨_, hM.raw_eq hv.1 (by omega), fun h1 => ?_, fun h1 => ?_, fun h1 => ?_⟩
  · obtain ⟨y, h2, h3, _⟩ := k1 h1
    exact ⟨y, by rw [pf_count_val h ha, pfCount, h2], h3⟩
  · rw [pf_count_val h ha, pfCount, k2 h1]
  · rw [pf_count_val h ha, pfCount, k3 h1]

/-- **C27, in terms of the hashes.** If at least half of the registers are below the
maximal rank `33 - p` (it takes hashes with `32 - p` zero bits to exceed this) then `count` is finite
and not negative.  Missing for the full claim: nothing can be said without a condition, see
`C27_pf_refuted`. -/
theorem C27_pf_finite_partial (hln : LnSpec ln) (h : Supported cfg c ops) {a : Abs I}
    (ha : (contents 32 16 ops)[i]? = some a)
    (hh : 2 ^ a.p ≤ 2 * (regs 32 a.p a.S).countP (· < 33 - a.p)) :
    ∃ y : ℚ, later (PF.api cfg ln c) ords ops [.count i] = .ok [.count (fin y)] ∧ 0 ≤ y := by
  have hv := contents_valid 32 16 ops a (mem_of_get ha)
  have hM : Regs a.p (regs 32 a.p a.S) := regs_regs _ (by omega)
  have hlt := pf_raw_lt hv.1 hv.2.1 hM.length (by
    intro r hr
    obtain ⟨j, _, rfl⟩ := List.mem_map.1 hr
    exact le_trans (reg_le _ _ _ _) (by omega)) hh
  obtain ⟨y, h2, h3, _⟩ := (pfDense_value hln hv.1 hv.2.1 hM).1 hlt
  exact ⟨y, by rw [pf_count_val h ha, pfCount, h2], h3⟩

example : ∃ a, (contents 32 16 demoPF)[0]? = some a ∧
    2 ^ a.p ≤ 2 * (regs 32 a.p a.S).countP (· < 33 - a.p) := ⟨_, rfl, by decide +kernel⟩

/-- A program that inserts 16 values whose hashes have 28 zero bits after each 4-bit prefix. -/
def nanProgram : List (Op Nat) :=
  .new 4 (fun n => (BitVec.ofNat 64 n) <<< 28) :: (List.range 16).map fun n => .insert .insert 0 n

/-- **C27 is false as stated:** after 16 insertions into a sketch of precision 4, `count` is NaN. -/
theorem C27_pf_refuted (hln : LnSpec ln) :
    later (PF.api Cfg.debug64 ln (noCodec Nat)) ords nanProgram [.count 0] = .ok [.count nan] := by
  have hs : Supported Cfg.debug64 (noCodec Nat) nanProgram := supported64 rfl _ (by
    simp [nanProgram, List.range, List.range.loop])
  obtain ⟨raw, h1, _, _, h2⟩ := C27_pf_value (ords := ords) hln hs (i := 0) (a := ((contents 32 16 nanProgram).getD 0
    ⟨fun _ => 0, 4, ∅⟩)) rfl
  apply h2
  have hr : rawEstimate 4 (List.replicate 16 29) = fin (rawEstimate 4 (List.replicate 16 29)).val ∧
      2 ^ 32 < (rawEstimate 4 (List.replicate 16 29)).val := by decide +kernel
  have hM : regs 32 4 ((contents 32 16 nanProgram).getD 0 ⟨fun _ => 0, 4, ∅⟩).S = List.replicate 16 29 := by
    decide +kernel
  have hp : ((contents 32 16 nanProgram).getD 0 ⟨fun _ => 0, 4, ∅⟩).p = 4 := by decide +kernel
  rw [hp, hM, hr.1] at h1
  cases h1
  exact hr.2

end HLL
