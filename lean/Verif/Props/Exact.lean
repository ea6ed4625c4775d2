import Verif.Proofs.Numbers
import Verif.Props.Command

/-!
# C92: the commands of the evaluation program, on any files
-/

namespace HLL
open Spec F64 Evl Exp

variable {cfg : Cfg} {ln : F64 → F64} {p n jobs k : Nat} {ords : Nat → IterOrder × IterOrder}

/-- **C92**, input files: `load` accepts exactly the texts with one number of `w` bits per line, and returns the
numbers; on any other text it panics. -/
theorem C92_load (w : Nat) (x : Text) :
    (∀ ns, load w x = .ok ns ↔ Numbers w x ns) ∧
    ((¬ ∃ ns, Numbers w x ns) ↔ load w x = .error .unwrapNone) := by
  refine ⟨fun ns => load_iff, ?_⟩
  cases h : load w x with
  | ok ns => simpa using ⟨ns, load_iff.1 h⟩
  | error e =>
    obtain rfl := load_error h
    simp only [iff_true]
    rintro ⟨ns, hn⟩
    rw [load_iff.2 hn] at h
    cases h

/-- Signs, zeros in front, both line ends and a missing one at the end. -/
example : Numbers 8 "12\r\n+0255\n7".toList [12, 255, 7] ∧ ¬ (∃ ns, Numbers 8 "12\n256\n".toList ns) ∧
    (¬ ∃ ns, Numbers 8 "12\n\n7\n".toList ns) ∧ (¬ ∃ ns, Numbers 8 "7\r".toList ns) ∧
    ¬ ∃ ns, Numbers 8 "+".toList ns := by
  refine ⟨load_iff.1 (by decide +kernel), ?_, ?_, ?_, ?_⟩ <;> exact ((C92_load _ _).2).2 (by decide +kernel)

namespace Evl

/-! ## Loops -/

/-- Exactly when a loop completes, and with what files. -/
theorem loop_exact {plan : Option (R Plan)} {T : Fin n → Evl.Task Text} {F F' : Files Text}
    (hplan : plan = some (.ok (.loop jobs n T))) (hj : 1 ≤ jobs)
    (hio : ∀ i j a, (T i).input = some a → (T j).output ≠ a) (hd : ∀ i j, (T i).output = (T j).output → i = j) :
    Completes plan F F' ↔ (∀ i, ∃ y, (T i).result F = .ok y ∧ F' (T i).output = some y) ∧
      ∀ a, (∀ i, (T i).output ≠ a) → F' a = F a := by
  constructor
  · subst hplan
    rintro (⟨h, -⟩ | ⟨jobs', n', T', k, c, h, hx, hf, rfl⟩)
    · cases h
    · cases h
      obtain ⟨h1, h2⟩ := C89_tasks hio hd hx
      exact ⟨fun i => (h2 i).1 (hf i), h1⟩
  · rintro ⟨h1, h2⟩
    choose want h3 h4 using h1
    obtain ⟨k1, k2⟩ := sure_loop (F := F) hplan hj hio hd h3
    obtain ⟨G, hG⟩ := k1.completes
    obtain ⟨k3, k4⟩ := k2 G hG
    have : G = F' := by
      funext a
      by_cases ha : ∃ i, (T i).output = a
      · obtain ⟨i, rfl⟩ := ha
        rw [k3, h4]
      · push Not at ha
        rw [k4 a ha, h2 a ha]
    rwa [← this]

/-! ## One task -/

section
variable {St I : Type} {api : Api St I} {w maxP : Nat} {E : Nat → Finset Nat → F64} {c : Serde.Codec I}

theorem runHashes_congr {v : Nat} {ofNat : Nat → I} {hash : I → U64} {P x x' : Text} (h : load v x = load v x') :
    runHashes cfg api ords v ofNat hash P x = runHashes cfg api ords v ofNat hash P x' := by
  rw [runHashes, runHashes, h]

theorem runCardinalities_congr {rng : Nat → I} {hash : I → U64} {P x x' : Text}
    (h : load cfg.usizeBits x = load cfg.usizeBits x') :
    runCardinalities cfg api ords rng hash P x = runCardinalities cfg api ords rng hash P x' := by
  rw [runCardinalities, runCardinalities, h]

theorem load_congr {v : Nat} {x : Text} (h : ¬ ∃ ns, Numbers v x ns) : load v x = load v (generate [2 ^ v]) := by
  rw [((C92_load v x).2).1 h, load_generate, if_neg (by simp)]

theorem load_congr' {v : Nat} {x : Text} {ns : List Nat} (h : Numbers v x ns) : load v x = load v (generate ns) := by
  rw [load_iff.2 h, load_generate, if_pos (Numbers.lt h)]

theorem runCardinalities_error (h : Implements api w maxP E (Supported cfg c)) (hb : 36 < cfg.usizeBits) (hp : p < 256)
    {rng : Nat → I} {hash : I → U64} {x : Text}
    (hx : ¬ (4 ≤ p ∧ p ≤ maxP) ∨ ¬ ∃ ns, Numbers cfg.usizeBits x ns) :
    runCardinalities cfg api ords rng hash (toString p).toList x = .error .unwrapNone := by
  rw [runCardinalities, parse_precision hp]
  simp only [unwrap, ok_bind]
  by_cases h3 : 4 ≤ p ∧ p ≤ maxP
  · obtain ⟨s, st, k1, -⟩ := create_ok (ords := ords) h (p := p) (b := hash)
      (ops := []) (supported_of hb (by simp)) h3
    rw [k1, ((C92_load _ _).2).1 (by tauto)]
    rfl
  · rw [create_error h (supported_of hb (by simp)) h3 ords]
    rfl
end

end Evl

/-- The lines that `run_plus` writes for the hashes `ns`. -/
def plusText (cfg : Cfg) (ln : F64 → F64) (p : Nat) (ns : List Nat) : Text :=
  (String.join ((List.range ns.length).map fun k =>
    s!"{k + 1} {truncU64 (plusCount ln (Plus.biasOf cfg.search) p (ns.take (k + 1)).toFinset)}\n")).toList

/-- The lines that `run` writes for the hashes `ns`. -/
def pfText (ln : F64 → F64) (p : Nat) (ns : List Nat) : Text :=
  (String.join ((List.range ns.length).map fun k =>
    s!"{k + 1} {truncU64 (pfCount ln p (ns.take (k + 1)).toFinset)}\n")).toList

/-- The lines that `run_plus` writes for the cardinalities `ts` and the random numbers `rng`. -/
def plusAtText (cfg : Cfg) (ln : F64 → F64) (p : Nat) (rng : Nat → U64) (ts : List Nat) : Text :=
  (String.join ((List.range ts.length).map fun i =>
    let t := (ts.take (i + 1)).foldl max 0
    s!"{t} {truncU64 (plusCount ln (Plus.biasOf cfg.search) p ((Finset.range t).image fun j => (rng j).toNat))}\n")).toList

/-- The lines that `run` writes for the cardinalities `ts` and the random numbers `rng`. -/
def pfAtText (ln : F64 → F64) (p : Nat) (rng : Nat → U32) (ts : List Nat) : Text :=
  (String.join ((List.range ts.length).map fun i =>
    let t := (ts.take (i + 1)).foldl max 0
    s!"{t} {truncU64 (pfCount ln p ((Finset.range t).image fun j => (rng j).toNat))}\n")).toList

namespace Evl

theorem toNat_ofNat_list {w : Nat} {ns : List Nat} (h : ∀ n ∈ ns, n < 2 ^ w) :
    (ns.map (BitVec.ofNat w)).map BitVec.toNat = ns := by
  rw [List.map_map]
  conv_rhs => rw [← List.map_id ns]
  exact List.map_congr_left fun n hn => by simpa using Nat.mod_eq_of_lt (h n hn)

theorem runPlus_exact (hcfg : cfg.usizeBits = 64) (c : Serde.Codec U64) (hp : p < 256) {x y : Text}
    (hx : x.length < 2 ^ 64) :
    runPlus cfg ln c ords (toString p).toList x = .ok y ↔
      (4 ≤ p ∧ p ≤ 18) ∧ ∃ ns, Numbers 64 x ns ∧ y = plusText cfg ln p ns := by
  by_cases h : (4 ≤ p ∧ p ≤ 18) ∧ ∃ ns, Numbers 64 x ns
  · obtain ⟨⟨h1, h2⟩, ns, h3⟩ := h
    have e : runPlus cfg ln c ords (toString p).toList x = .ok (plusText cfg ln p ns) := by
      have := C78_plus_hashes (ln := ln) (ords := ords) hcfg c h1 h2 (ns.map (BitVec.ofNat 64))
        (by rw [List.length_map]; exact lt_of_le_of_lt (Numbers.length_le h3) hx)
      rw [toNat_ofNat_list (Numbers.lt h3)] at this
      rw [runPlus, runHashes_congr (load_congr' h3), ← runPlus, this, plusText, List.length_map]
      simp only [List.map_take, toNat_ofNat_list (Numbers.lt h3)]
    rw [e]
    constructor
    · intro h
      cases h
      exact ⟨⟨h1, h2⟩, ns, h3, rfl⟩
    · rintro ⟨-, ms, k1, rfl⟩
      have := (load_iff.2 h3).symm.trans (load_iff.2 k1)
      cases this
      rfl
  · have e : runPlus cfg ln c ords (toString p).toList x = .error .unwrapNone := by
      by_cases h3 : ∃ ns, Numbers 64 x ns
      · obtain ⟨ns, h4⟩ := h3
        rw [runPlus, runHashes_congr (load_congr' h4), ← runPlus]
        exact (C78_panics hcfg c (noCodec _) hp ns).1 (.inl fun h5 => h ⟨h5, ns, h4⟩)
      · rw [runPlus, runHashes_congr (load_congr h3), ← runPlus]
        exact (C78_panics hcfg c (noCodec _) hp _).1 (.inr (by simp))
    rw [e]
    constructor
    · intro h; cases h
    · rintro ⟨k1, ns, k2, -⟩
      exact absurd ⟨k1, ns, k2⟩ h

theorem runPF_exact (hcfg : cfg.usizeBits = 64) (c : Serde.Codec U32) (hp : p < 256) {x y : Text}
    (hx : x.length < 2 ^ 64) :
    Evl.run cfg ln c ords (toString p).toList x = .ok y ↔
      (4 ≤ p ∧ p ≤ 16) ∧ ∃ ns, Numbers 32 x ns ∧ y = pfText ln p ns := by
  by_cases h : (4 ≤ p ∧ p ≤ 16) ∧ ∃ ns, Numbers 32 x ns
  · obtain ⟨⟨h1, h2⟩, ns, h3⟩ := h
    have e : Evl.run cfg ln c ords (toString p).toList x = .ok (pfText ln p ns) := by
      have := C78_pf_hashes (ln := ln) (ords := ords) hcfg c h1 h2 (ns.map (BitVec.ofNat 32))
        (by rw [List.length_map]; exact lt_of_le_of_lt (Numbers.length_le h3) hx)
      rw [toNat_ofNat_list (Numbers.lt h3)] at this
      rw [Evl.run, runHashes_congr (load_congr' h3), ← Evl.run, this, pfText, List.length_map]
      simp only [List.map_take, toNat_ofNat_list (Numbers.lt h3)]
    rw [e]
    constructor
    · intro h
      cases h
      exact ⟨⟨h1, h2⟩, ns, h3, rfl⟩
    · rintro ⟨-, ms, k1, rfl⟩
      have := (load_iff.2 h3).symm.trans (load_iff.2 k1)
      cases this
      rfl
  · have e : Evl.run cfg ln c ords (toString p).toList x = .error .unwrapNone := by
      by_cases h3 : ∃ ns, Numbers 32 x ns
      · obtain ⟨ns, h4⟩ := h3
        rw [Evl.run, runHashes_congr (load_congr' h4), ← Evl.run]
        exact (C78_panics hcfg (noCodec _) c hp ns).2 (.inl fun h5 => h ⟨h5, ns, h4⟩)
      · rw [Evl.run, runHashes_congr (load_congr h3), ← Evl.run]
        exact (C78_panics hcfg (noCodec _) c hp _).2 (.inr (by simp))
    rw [e]
    constructor
    · intro h; cases h
    · rintro ⟨k1, ns, k2, -⟩
      exact absurd ⟨k1, ns, k2⟩ h

theorem load_join' {x : Text} {ts : List Nat} (h : Numbers 64 x ts) :
    load 64 x = load 64 (List.intercalate ['\n'] (ts.map fun t => (toString t).toList)) := by
  rw [load_iff.2 h, (C78_files 64 ts).2.2, if_pos (Numbers.lt h)]

theorem runPlusAt_exact (hcfg : cfg.usizeBits = 64) (c : Serde.Codec U64) (hp : p < 256) {rng : Nat → U64} {x y : Text} :
    runPlusAt cfg ln c ords rng (toString p).toList x = .ok y ↔
      (4 ≤ p ∧ p ≤ 18) ∧ ∃ ts, Numbers 64 x ts ∧ y = plusAtText cfg ln p rng ts := by
  by_cases h : (4 ≤ p ∧ p ≤ 18) ∧ ∃ ts, Numbers 64 x ts
  · obtain ⟨⟨h1, h2⟩, ts, h3⟩ := h
    have e : runPlusAt cfg ln c ords rng (toString p).toList x = .ok (plusAtText cfg ln p rng ts) := by
      have e := load_join' h3
      rw [← hcfg] at e
      rw [runPlusAt, runCardinalities_congr e, ← runPlusAt]
      exact C78_plus_cardinalities hcfg c h1 h2 rng ts (Numbers.lt h3)
    rw [e]
    constructor
    · intro h
      cases h
      exact ⟨⟨h1, h2⟩, ts, h3, rfl⟩
    · rintro ⟨-, ms, k1, rfl⟩
      have := (load_iff.2 h3).symm.trans (load_iff.2 k1)
      cases this
      rfl
  · have e : runPlusAt cfg ln c ords rng (toString p).toList x = .error .unwrapNone :=
      runCardinalities_error (Plus.implements cfg ln c) (by omega) hp (by rw [hcfg]; tauto)
    rw [e]
    constructor
    · intro h; cases h
    · rintro ⟨k1, ns, k2, -⟩
      exact absurd ⟨k1, ns, k2⟩ h

theorem runAt_exact (hcfg : cfg.usizeBits = 64) (c : Serde.Codec U32) (hp : p < 256) {rng : Nat → U32} {x y : Text} :
    runAt cfg ln c ords rng (toString p).toList x = .ok y ↔
      (4 ≤ p ∧ p ≤ 16) ∧ ∃ ts, Numbers 64 x ts ∧ y = pfAtText ln p rng ts := by
  by_cases h : (4 ≤ p ∧ p ≤ 16) ∧ ∃ ts, Numbers 64 x ts
  · obtain ⟨⟨h1, h2⟩, ts, h3⟩ := h
    have e : runAt cfg ln c ords rng (toString p).toList x = .ok (pfAtText ln p rng ts) := by
      have e := load_join' h3
      rw [← hcfg] at e
      rw [runAt, runCardinalities_congr e, ← runAt]
      exact C78_pf_cardinalities hcfg c h1 h2 rng ts (Numbers.lt h3)
    rw [e]
    constructor
    · intro h
      cases h
      exact ⟨⟨h1, h2⟩, ts, h3, rfl⟩
    · rintro ⟨-, ms, k1, rfl⟩
      have := (load_iff.2 h3).symm.trans (load_iff.2 k1)
      cases this
      rfl
  · have e : runAt cfg ln c ords rng (toString p).toList x = .error .unwrapNone :=
      runCardinalities_error (PF.implements cfg ln c) (by omega) hp (by rw [hcfg]; tauto)
    rw [e]
    constructor
    · intro h; cases h
    · rintro ⟨k1, ns, k2, -⟩
      exact absurd ⟨k1, ns, k2⟩ h

theorem LastPart.fileName {f b : Text} (h : LastPart f b) : fileName f = some b := by
  obtain ⟨h1, h2, h3, h4, h5⟩ := h
  obtain ⟨k1, k2, -⟩ := C89_file_name h3 h4 h5 h2 0 (out := ['a']) (by simp) (by decide) "" 0
  rcases h1 with rfl | ⟨d, rfl⟩
  · exact k1
  · exact k2 d

theorem output_hashes {out f b : Text} (h0 : out ≠ []) (hl : out.getLast? ≠ some '/') (h : LastPart f b) (p : Nat)
    (run : Text → R Text) :
    (hashesTask id run p out f).output = out ++ '/' :: s!"est-p{p}-".toList ++ b := by
  obtain ⟨-, -, k, -⟩ := C89_file_name h.2.2.1 h.2.2.2.1 h.2.2.2.2 h.2.1 p h0 hl "" 0
  rw [← k, hashesTask]
  simp only [id, LastPart.fileName h, Option.getD_some]

/-- The loop over files of hashes. -/
theorem exact_hashes {plan : Option (R Plan)} {out : Text} {L : List Text} {base : Text → Text} {w : Nat} {ok : Prop}
    {run : Nat → Text → R Text} {lines : List Nat → Text} {F F' : Files Text}
    (hplan : plan = some (.ok (.loop jobs L.length fun i => hashesTask id (run i) p out L[i]))) (hj : 1 ≤ jobs)
    (h0 : out ≠ []) (hl : out.getLast? ≠ some '/') (hb : ∀ f ∈ L, LastPart f (base f)) (hnd : L.Nodup)
    (hinj : ∀ f ∈ L, ∀ g ∈ L, base f = base g → f = g)
    (hne : ∀ f ∈ L, ∀ g ∈ L, f ≠ out ++ '/' :: s!"est-p{p}-".toList ++ base g)
    (hlen : ∀ f ∈ L, ∀ x, F f = some x → x.length < 2 ^ 64)
    (hrun : ∀ i x y, x.length < 2 ^ 64 → (run i x = .ok y ↔ ok ∧ ∃ ns, Numbers w x ns ∧ y = lines ns)) :
    Completes plan F F' ↔
      (∀ f ∈ L, ok ∧ ∃ x ns, F f = some x ∧ Numbers w x ns ∧
        F' (out ++ '/' :: s!"est-p{p}-".toList ++ base f) = some (lines ns)) ∧
      ∀ a, (∀ f ∈ L, out ++ '/' :: s!"est-p{p}-".toList ++ base f ≠ a) → F' a = F a := by
  have hm : ∀ i : Fin L.length, L[i] ∈ L := fun i => List.getElem_mem _
  have hout : ∀ i : Fin L.length, (hashesTask id (run i) p out L[i]).output =
      out ++ '/' :: s!"est-p{p}-".toList ++ base L[i] := fun i => output_hashes h0 hl (hb _ (hm i)) p _
  rw [loop_exact hplan hj]
  · simp only [hout]
    refine and_congr ⟨fun h f hf => ?_, fun h i => ?_⟩ ⟨fun h a ha => h a fun i => ha _ (hm i), fun h a ha => h a ?_⟩
    · obtain ⟨i, hi, rfl⟩ := List.getElem_of_mem hf
      obtain ⟨y, k1, k2⟩ := h ⟨i, hi⟩
      cases hF : F L[i] with
      | none => simp [Task.result, hashesTask, hF] at k1
      | some x =>
        rw [result_some (a := L[i]) rfl hF] at k1
        simp only [hashesTask, LastPart.fileName (hb _ hf), unwrap_some, Fin.getElem_fin] at k1
        cases hr : run i x with
        | error e => simp [hr] at k1
        | ok y' =>
          rw [hr] at k1
          cases k1
          obtain ⟨k3, ns, k4, rfl⟩ := (hrun i x y (hlen _ hf x hF)).1 hr
          exact ⟨k3, x, ns, rfl, k4, k2⟩
    · obtain ⟨k1, x, ns, k2, k3, k4⟩ := h _ (hm i)
      refine ⟨lines ns, ?_, k4⟩
      rw [result_some (a := L[i]) rfl k2]
      simp only [hashesTask, LastPart.fileName (hb _ (hm i)), unwrap_some]
      rw [(hrun i x _ (hlen _ (hm i) x k2)).2 ⟨k1, ns, k3, rfl⟩]
      rfl
    · intro f hf
      obtain ⟨i, hi, rfl⟩ := List.getElem_of_mem hf
      exact ha ⟨i, hi⟩
  · intro i j a ha
    obtain rfl : L[i] = a := by simpa [hashesTask] using ha
    rw [hout j]
    exact (hne _ (hm i) _ (hm j)).symm
  · intro i j e
    rw [hout, hout] at e
    exact Fin.ext (hnd.getElem_inj_iff.1 (hinj _ (hm i) _ (hm j) (List.append_cancel_left e)))

theorem output_cards {out : Text} (h0 : out ≠ []) (hl : out.getLast? ≠ some '/') (p : Nat) (run : Text → R Text)
    (size : String) (file : Text) (r : Nat) :
    (cardsTask id run p size.toList out file r).output = out ++ '/' :: s!"est-p{p}-cards-s{size}-r{r}.dat".toList :=
  (C89_file_name (base := ['a']) (by simp) (by decide) (by decide) (by decide) p h0 hl size r).2.2.2.1

/-- The loop over runs for a file of cardinalities. -/
theorem exact_cards {plan : Option (R Plan)} {out file : Text} {runs w : Nat} {ok : Prop} {size : String}
    {run : Nat → Text → R Text} {lines : Nat → List Nat → Text} {F F' : Files Text}
    (hplan : plan = some (.ok (.loop jobs runs fun r => cardsTask id (run r) p size.toList out file r))) (hj : 1 ≤ jobs)
    (h0 : out ≠ []) (hl : out.getLast? ≠ some '/')
    (hne : ∀ r < runs, file ≠ out ++ '/' :: s!"est-p{p}-cards-s{size}-r{r}.dat".toList)
    (hrun : ∀ r x y, run r x = .ok y ↔ ok ∧ ∃ ns, Numbers w x ns ∧ y = lines r ns) :
    Completes plan F F' ↔
      (∀ r < runs, ok ∧ ∃ x ns, F file = some x ∧ Numbers w x ns ∧
        F' (out ++ '/' :: s!"est-p{p}-cards-s{size}-r{r}.dat".toList) = some (lines r ns)) ∧
      ∀ a, (∀ r < runs, out ++ '/' :: s!"est-p{p}-cards-s{size}-r{r}.dat".toList ≠ a) → F' a = F a := by
  have hout := fun r => output_cards h0 hl p (run r) size file r
  rw [loop_exact hplan hj]
  · simp only [hout]
    refine and_congr ⟨fun h r hr => ?_, fun h i => ?_⟩ ⟨fun h a ha => h a fun i => ha _ i.2,
      fun h a ha => h a fun r hr => ha ⟨r, hr⟩⟩
    · obtain ⟨y, k1, k2⟩ := h ⟨r, hr⟩
      cases hF : F file with
      | none => simp [Task.result, cardsTask, hF] at k1
      | some x =>
        rw [result_some (a := file) rfl hF] at k1
        obtain ⟨k3, ns, k4, rfl⟩ := (hrun r x y).1 k1
        exact ⟨k3, x, ns, rfl, k4, k2⟩
    · obtain ⟨k1, x, ns, k2, k3, k4⟩ := h i i.2
      refine ⟨lines i ns, ?_, k4⟩
      rw [result_some (a := file) rfl k2]
      exact (hrun i x _).2 ⟨k1, ns, k3, rfl⟩
  · intro i j a ha
    obtain rfl : file = a := by simpa [cardsTask] using ha
    rw [hout j]
    exact (hne _ j.2).symm
  · intro i j e
    exact Fin.ext (cardsName_inj (join_inj e))

end Evl

namespace Evl
theorem cards_name_64 (p r : Nat) : s!"est-p{p}-cards-s{"64"}-r{r}.dat" = s!"est-p{p}-cards-s64-r{r}.dat" := by
  rw [← String.toList_inj]
  simp only [String.toList_append, List.append_assoc]
  rfl
theorem cards_name_32 (p r : Nat) : s!"est-p{p}-cards-s{"32"}-r{r}.dat" = s!"est-p{p}-cards-s32-r{r}.dat" := by
  rw [← String.toList_inj]
  simp only [String.toList_append, List.append_assoc]
  rfl
theorem gen_name_64 (r : Nat) : s!"hashes-s{"64"}-r{r}.dat" = s!"hashes-s64-r{r}.dat" := by
  rw [← String.toList_inj]
  simp only [String.toList_append, List.append_assoc]
  rfl
theorem gen_name_32 (r : Nat) : s!"hashes-s{"32"}-r{r}.dat" = s!"hashes-s32-r{r}.dat" := by
  rw [← String.toList_inj]
  simp only [String.toList_append, List.append_assoc]
  rfl

/-- The loop of `gen`. -/
theorem exact_gen {plan : Option (R Plan)} {out : Text} {runs count : Nat} {size : String} {draw : Nat → Nat → Nat}
    {F F' : Files Text}
    (hplan : plan = some (.ok (.loop jobs runs fun r =>
      genTask id size.toList out ((List.range count).map fun i => draw r i) r))) (hj : 1 ≤ jobs)
    (h0 : out ≠ []) (hl : out.getLast? ≠ some '/') :
    Completes plan F F' ↔
      (∀ r < runs, F' (out ++ '/' :: s!"hashes-s{size}-r{r}.dat".toList) =
        some (String.join ((List.range count).map fun i => s!"{draw r i}\n")).toList) ∧
      ∀ a, (∀ r < runs, out ++ '/' :: s!"hashes-s{size}-r{r}.dat".toList ≠ a) → F' a = F a := by
  have hout : ∀ r, (genTask id size.toList out ((List.range count).map fun i => draw r i) r).output =
      out ++ '/' :: s!"hashes-s{size}-r{r}.dat".toList := fun r =>
    (C89_file_name (base := ['a']) (by simp) (by decide) (by decide) (by decide) 0 h0 hl size r).2.2.2.2
  rw [loop_exact hplan hj (by simp [genTask]) (fun i j e => Fin.ext (C78_names (join_inj e)))]
  simp only [hout]
  have hres : ∀ r, (genTask id size.toList out ((List.range count).map fun i => draw r i) r).result F =
      .ok (String.join ((List.range count).map fun i => s!"{draw r i}\n")).toList := by
    intro r
    have := (C78_files 0 ((List.range count).map fun i => draw r i)).1
    rw [List.map_map] at this
    exact congrArg Except.ok this
  simp only [hres]
  refine and_congr ⟨fun h r hr => ?_, fun h i => ⟨_, rfl, h i i.2⟩⟩ ⟨fun h a ha => h a fun i => ha _ i.2,
      fun h a ha => h a fun r hr => ha ⟨r, hr⟩⟩
  obtain ⟨y, k1, k2⟩ := h ⟨r, hr⟩
  cases k1
  exact k2
end Evl

/-- **C92**, `gen`: the command always completes; afterwards there is one file per run with the random numbers of
this run, one per line, and all other files are as before. -/
theorem C92_gen (hcfg : cfg.usizeBits = 64) (c32 : Serde.Codec U32) (c64 : Serde.Codec U64) (env : Env)
    (he : 1 ≤ env.cpus) {j count runs : Nat} (hj : j < 2 ^ 64) (hc : count < 2 ^ 64) (hr : runs < 2 ^ 64) {out : Text}
    (h0 : out ≠ []) (hv : out.head? ≠ some '-') (hl : out.getLast? ≠ some '/') {F F' : Files Text} :
    (Completes (main cfg ln c32 c64 env (prepareCommand (j : ℤ) "64".toList (count : ℤ) (runs : ℤ) out)) F F' ↔
      (∀ r < runs, F' (out ++ '/' :: s!"hashes-s64-r{r}.dat".toList) =
        some (String.join ((List.range count).map fun i => s!"{(env.draw64 r i).toNat}\n")).toList) ∧
      ∀ a, (∀ r < runs, out ++ '/' :: s!"hashes-s64-r{r}.dat".toList ≠ a) → F' a = F a) ∧
    (Completes (main cfg ln c32 c64 env (prepareCommand (j : ℤ) "32".toList (count : ℤ) (runs : ℤ) out)) F F' ↔
      (∀ r < runs, F' (out ++ '/' :: s!"hashes-s32-r{r}.dat".toList) =
        some (String.join ((List.range count).map fun i => s!"{(env.draw32 r i).toNat}\n")).toList) ∧
      ∀ a, (∀ r < runs, out ++ '/' :: s!"hashes-s32-r{r}.dat".toList ≠ a) → F' a = F a) := by
  obtain ⟨h32, h64⟩ := main_gen (ln := ln) (c32 := c32) (c64 := c64) (env := env) hcfg hj hc hr (isValue_plain hv)
  constructor
  · have := exact_gen (size := "64") (draw := fun r i => (env.draw64 r i).toNat) (F := F) (F' := F') h64
      (threads_pos he) h0 hl
    simp only [gen_name_64] at this
    exact this
  · have := exact_gen (size := "32") (draw := fun r i => (env.draw32 r i).toNat) (F := F) (F' := F') h32
      (threads_pos he) h0 hl
    simp only [gen_name_32] at this
    exact this

/-- **C92**, `run hashes` with `HyperLogLogPlus`: the command completes exactly if the precision is one
that `new` accepts and every file given exists and has one 64-bit number per line.  Then the estimates for each file
are in a file of their own, and all other files are as before. -/
theorem C92_plus_hashes (hcfg : cfg.usizeBits = 64) (c32 : Serde.Codec U32) (c64 : Serde.Codec U64) (env : Env)
    (he : 1 ≤ env.cpus) {j p : Nat} (hj : j < 2 ^ 64) {out : Text} (h0 : out ≠ []) (hv : out.head? ≠ some '-')
    (hl : out.getLast? ≠ some '/') {L : List Text} (hL : L ≠ []) (hLv : ∀ f ∈ L, f.head? ≠ some '-')
    {base : Text → Text} (hb : ∀ f ∈ L, LastPart f (base f)) (hnd : L.Nodup)
    (hinj : ∀ f ∈ L, ∀ g ∈ L, base f = base g → f = g)
    (hne : ∀ f ∈ L, ∀ g ∈ L, f ≠ out ++ '/' :: s!"est-p{p}-".toList ++ base g) {F F' : Files Text}
    (hlen : ∀ f ∈ L, ∀ x, F f = some x → x.length < 2 ^ 64) :
    Completes (main cfg ln c32 c64 env (runHashesCommand (j : ℤ) "hllp".toList (p : ℤ) out L)) F F' ↔
      (∀ f ∈ L, (4 ≤ p ∧ p ≤ 18) ∧ ∃ x ns, F f = some x ∧ Numbers 64 x ns ∧
        F' (out ++ '/' :: s!"est-p{p}-".toList ++ base f) = some (plusText cfg ln p ns)) ∧
      ∀ a, (∀ f ∈ L, out ++ '/' :: s!"est-p{p}-".toList ++ base f ≠ a) → F' a = F a := by
  have hLv' : ∀ f ∈ L, isValue f = true := fun f hf => isValue_plain (hLv f hf)
  by_cases hp : p < 256
  · exact exact_hashes (run := fun i => runPlus cfg ln c64 (env.ords i) (toString p).toList)
      (main_hashes hcfg hj hp (isValue_plain hv) hL hLv').2 (threads_pos he) h0 hl hb hnd hinj hne
      hlen fun i x y hx => runPlus_exact hcfg _ hp hx
  · rw [(C90_precision (runs := 0) (type := "hllp".toList) (file := []) (not_lt.1 hp) hcfg hj (by decide)
      (isValue_plain hv) rfl hL hLv').1]
    obtain ⟨f, hf⟩ := List.exists_mem_of_ne_nil L hL
    constructor
    · rintro (⟨h, -⟩ | ⟨jobs', n', T', k, c, h, -⟩) <;> cases h
    · intro h
      have := (h.1 f hf).1
      omega

/-- **C92**, `run hashes` with `HyperLogLogPF`: the same with precisions up to 16 and 32-bit numbers. -/
theorem C92_pf_hashes (hcfg : cfg.usizeBits = 64) (c32 : Serde.Codec U32) (c64 : Serde.Codec U64) (env : Env)
    (he : 1 ≤ env.cpus) {j p : Nat} (hj : j < 2 ^ 64) {out : Text} (h0 : out ≠ []) (hv : out.head? ≠ some '-')
    (hl : out.getLast? ≠ some '/') {L : List Text} (hL : L ≠ []) (hLv : ∀ f ∈ L, f.head? ≠ some '-')
    {base : Text → Text} (hb : ∀ f ∈ L, LastPart f (base f)) (hnd : L.Nodup)
    (hinj : ∀ f ∈ L, ∀ g ∈ L, base f = base g → f = g)
    (hne : ∀ f ∈ L, ∀ g ∈ L, f ≠ out ++ '/' :: s!"est-p{p}-".toList ++ base g) {F F' : Files Text}
    (hlen : ∀ f ∈ L, ∀ x, F f = some x → x.length < 2 ^ 64) :
    Completes (main cfg ln c32 c64 env (runHashesCommand (j : ℤ) "hll".toList (p : ℤ) out L)) F F' ↔
      (∀ f ∈ L, (4 ≤ p ∧ p ≤ 16) ∧ ∃ x ns, F f = some x ∧ Numbers 32 x ns ∧
        F' (out ++ '/' :: s!"est-p{p}-".toList ++ base f) = some (pfText ln p ns)) ∧
      ∀ a, (∀ f ∈ L, out ++ '/' :: s!"est-p{p}-".toList ++ base f ≠ a) → F' a = F a := by
  have hLv' : ∀ f ∈ L, isValue f = true := fun f hf => isValue_plain (hLv f hf)
  by_cases hp : p < 256
  · exact exact_hashes (run := fun i => Evl.run cfg ln c32 (env.ords i) (toString p).toList)
      (main_hashes hcfg hj hp (isValue_plain hv) hL hLv').1 (threads_pos he) h0 hl hb hnd hinj hne
      hlen fun i x y hx => runPF_exact hcfg _ hp hx
  · rw [(C90_precision (runs := 0) (type := "hll".toList) (file := []) (not_lt.1 hp) hcfg hj (by decide)
      (isValue_plain hv) rfl hL hLv').1]
    obtain ⟨f, hf⟩ := List.exists_mem_of_ne_nil L hL
    constructor
    · rintro (⟨h, -⟩ | ⟨jobs', n', T', k, c, h, -⟩) <;> cases h
    · intro h
      have := (h.1 f hf).1
      omega

/-- **C92**, `run cardinalities` with `HyperLogLogPlus`: the command completes exactly if the precision is one that
`new` accepts and the file of cardinalities exists and has one number per line. -/
theorem C92_plus_cardinalities (hcfg : cfg.usizeBits = 64) (c32 : Serde.Codec U32) (c64 : Serde.Codec U64) (env : Env)
    (he : 1 ≤ env.cpus) {j p runs : Nat} (hj : j < 2 ^ 64) (hr : 1 ≤ runs) (hr' : runs < 2 ^ 64) {out file : Text}
    (h0 : out ≠ []) (hv : out.head? ≠ some '-') (hl : out.getLast? ≠ some '/') (hfv : file.head? ≠ some '-')
    (hne : ∀ r < runs, file ≠ out ++ '/' :: s!"est-p{p}-cards-s64-r{r}.dat".toList) {F F' : Files Text} :
    Completes (main cfg ln c32 c64 env (runCardinalitiesCommand (j : ℤ) "hllp".toList (p : ℤ) out (runs : ℤ) file))
        F F' ↔
      (∀ r < runs, (4 ≤ p ∧ p ≤ 18) ∧ ∃ x ts, F file = some x ∧ Numbers 64 x ts ∧
        F' (out ++ '/' :: s!"est-p{p}-cards-s64-r{r}.dat".toList) = some (plusAtText cfg ln p (env.draw64 r) ts)) ∧
      ∀ a, (∀ r < runs, out ++ '/' :: s!"est-p{p}-cards-s64-r{r}.dat".toList ≠ a) → F' a = F a := by
  by_cases hp : p < 256
  · have := fun hne' => exact_cards (size := "64") (F := F) (F' := F')
      (run := fun i => runPlusAt cfg ln c64 (env.ords i) (env.draw64 i) (toString p).toList) (main_cards (ln := ln) (c32 := c32) (c64 := c64)
      (env := env) hcfg hj hp hr' (isValue_plain hv) (isValue_plain hfv)).2 (threads_pos he) h0 hl hne'
      fun r x y => runPlusAt_exact hcfg _ hp
    simp only [cards_name_64] at this
    exact this hne
  · rw [(C90_precision (type := "hllp".toList) (files := [['a']]) (not_lt.1 hp) hcfg hj (by decide)
      (isValue_plain hv) (isValue_plain hfv) (by simp) (by simp; decide)).2]
    constructor
    · rintro (⟨h, -⟩ | ⟨jobs', n', T', k, c, h, -⟩) <;> cases h
    · intro h
      have := (h.1 0 hr).1
      omega

/-- **C92**, `run cardinalities` with `HyperLogLogPF`. -/
theorem C92_pf_cardinalities (hcfg : cfg.usizeBits = 64) (c32 : Serde.Codec U32) (c64 : Serde.Codec U64) (env : Env)
    (he : 1 ≤ env.cpus) {j p runs : Nat} (hj : j < 2 ^ 64) (hr : 1 ≤ runs) (hr' : runs < 2 ^ 64) {out file : Text}
    (h0 : out ≠ []) (hv : out.head? ≠ some '-') (hl : out.getLast? ≠ some '/') (hfv : file.head? ≠ some '-')
    (hne : ∀ r < runs, file ≠ out ++ '/' :: s!"est-p{p}-cards-s32-r{r}.dat".toList) {F F' : Files Text} :
    Completes (main cfg ln c32 c64 env (runCardinalitiesCommand (j : ℤ) "hll".toList (p : ℤ) out (runs : ℤ) file))
        F F' ↔
      (∀ r < runs, (4 ≤ p ∧ p ≤ 16) ∧ ∃ x ts, F file = some x ∧ Numbers 64 x ts ∧
        F' (out ++ '/' :: s!"est-p{p}-cards-s32-r{r}.dat".toList) = some (pfAtText ln p (env.draw32 r) ts)) ∧
      ∀ a, (∀ r < runs, out ++ '/' :: s!"est-p{p}-cards-s32-r{r}.dat".toList ≠ a) → F' a = F a := by
  by_cases hp : p < 256
  · have := fun hne' => exact_cards (size := "32") (F := F) (F' := F')
      (run := fun i => runAt cfg ln c32 (env.ords i) (env.draw32 i) (toString p).toList) (main_cards (ln := ln) (c32 := c32) (c64 := c64)
      (env := env) hcfg hj hp hr' (isValue_plain hv) (isValue_plain hfv)).1 (threads_pos he) h0 hl hne'
      fun r x y => runAt_exact hcfg _ hp
    simp only [cards_name_32] at this
    exact this hne
  · rw [(C90_precision (type := "hll".toList) (files := [['a']]) (not_lt.1 hp) hcfg hj (by decide)
      (isValue_plain hv) (isValue_plain hfv) (by simp) (by simp; decide)).2]
    constructor
    · rintro (⟨h, -⟩ | ⟨jobs', n', T', k, c, h, -⟩) <;> cases h
    · intro h
      have := (h.1 0 hr).1
      omega

/-! ## Concrete cases -/

/-- Two files, one with Windows line breaks and without a line break at its end, the other one empty. -/
example (c32 : Serde.Codec U32) (c64 : Serde.Codec U64) (env : Env) (he : 1 ≤ env.cpus) (y : Text) :
    let F : Files Text := fun a => if a = "in/a.dat".toList then some "7\r\n+08".toList else
      if a = "b".toList then some y else none
    let evl := main Cfg.debug64 ln c32 c64 env
      (runHashesCommand 2 "hllp".toList 14 "out".toList ["in/a.dat".toList, "b".toList])
    (y = [] → ∃ F', Completes evl F F' ∧
      F' "out/est-p14-a.dat".toList = some (plusText Cfg.debug64 ln 14 [7, 8]) ∧
      F' "out/est-p14-b".toList = some []) ∧
    (y = "\n".toList → ∀ F', ¬ Completes evl F F') := by
  intro F evl
  have key : (y.length < 2 ^ 64) → ∀ F', Completes evl F F' ↔ _ := fun hy F' =>
    C92_plus_hashes (cfg := Cfg.debug64) (ln := ln) rfl c32 c64 env he (j := 2) (p := 14) (by norm_num)
      (out := "out".toList) (by decide) (by decide) (by decide) (L := ["in/a.dat".toList, "b".toList]) (by simp)
      (by decide +kernel) (base := fun f => if f = "b".toList then "b".toList else "a.dat".toList)
      (by
        intro f hf
        simp only [List.mem_cons, List.not_mem_nil, or_false] at hf
        rcases hf with rfl | rfl
        · exact ⟨.inr ⟨"in".toList, by decide +kernel⟩, by decide +kernel⟩
        · exact ⟨.inl (by decide +kernel), by decide +kernel⟩)
      (by decide +kernel) (by decide +kernel) (by decide +kernel) (F := F) (F' := F')
      (by
        intro f hf x hx
        simp only [List.mem_cons, List.not_mem_nil, or_false] at hf
        rcases hf with rfl | rfl
        · have e : x = "7\r\n+08".toList := by
            have : F "in/a.dat".toList = some "7\r\n+08".toList := if_pos rfl
            exact Option.some_injective _ (hx.symm.trans this)
          rw [e]
          decide +kernel
        · have e : x = y := by
            have : F "b".toList = some y := by
              rw [show F "b".toList = if "b".toList = "in/a.dat".toList then some "7\r\n+08".toList else
                if "b".toList = "b".toList then some y else none from rfl, if_neg (by decide +kernel), if_pos rfl]
            exact Option.some_injective _ (hx.symm.trans this)
          rw [e]
          exact hy)
  have hFa : F "in/a.dat".toList = some "7\r\n+08".toList := if_pos rfl
  have hFb : F "b".toList = some y := by
    rw [show F "b".toList = if "b".toList = "in/a.dat".toList then some "7\r\n+08".toList else
      if "b".toList = "b".toList then some y else none from rfl, if_neg (by decide +kernel), if_pos rfl]
  have na : "out".toList ++ '/' :: s!"est-p{14}-".toList ++ "a.dat".toList = "out/est-p14-a.dat".toList := by
    decide +kernel
  have nb : "out".toList ++ '/' :: s!"est-p{14}-".toList ++ "b".toList = "out/est-p14-b".toList := by
    decide +kernel
  have ne : "in/a.dat".toList ≠ "b".toList := by decide +kernel
  constructor
  · rintro rfl
    refine ⟨fun a => if a = "out/est-p14-a.dat".toList then some (plusText Cfg.debug64 ln 14 [7, 8]) else
      if a = "out/est-p14-b".toList then some [] else F a, (key (by decide) _).2 ⟨?_, ?_⟩, if_pos rfl, ?_⟩
    · intro f hf
      simp only [List.mem_cons, List.not_mem_nil, or_false] at hf
      rcases hf with rfl | rfl
      · refine ⟨by decide, _, [7, 8], hFa, load_iff.1 (by decide +kernel), ?_⟩
        rw [if_neg ne, na, if_pos rfl]
      · refine ⟨by decide, _, [], hFb, load_iff.1 (by decide +kernel), ?_⟩
        rw [if_pos rfl, nb, if_neg (by decide +kernel), if_pos rfl]
        rfl
    · intro a ha
      have h1 := ha "in/a.dat".toList (by simp)
      have h2 := ha "b".toList (by simp)
      rw [if_neg ne, na] at h1
      rw [if_pos rfl, nb] at h2
      rw [if_neg h1.symm, if_neg h2.symm]
    · beta_reduce
      rw [if_neg (by decide +kernel), if_pos rfl]
  · rintro rfl F' h
    obtain ⟨-, x, ns, k1, k2, -⟩ := ((key (by decide) F').1 h).1 "b".toList (by simp)
    obtain rfl := Option.some_injective _ (hFb.symm.trans k1)
    have := load_iff.2 k2
    rw [show load 64 "\n".toList = .error .unwrapNone by decide +kernel] at this
    cases this

/-- A 64-bit number for `HyperLogLogPF`: the command does not complete, one thread or not. -/
example (c32 : Serde.Codec U32) (c64 : Serde.Codec U64) (env : Env) (he : 1 ≤ env.cpus) (F F' : Files Text)
    (hF : F "a".toList = some "5\n4294967296\n".toList) :
    ¬ Completes (main Cfg.debug64 ln c32 c64 env (runHashesCommand 1 "hll".toList 14 "out".toList ["a".toList])) F F' := by
  intro h
  have := ((C92_pf_hashes (cfg := Cfg.debug64) (ln := ln) rfl c32 c64 env he (j := 1) (p := 14) (by norm_num)
    (out := "out".toList) (by decide) (by decide) (by decide) (L := ["a".toList]) (by simp) (by decide) (base := id)
    (by simp [LastPart]) (by simp) (by simp) (by decide +kernel) (F := F) (F' := F')
    (by
      intro f hf x hx
      simp only [List.mem_cons, List.not_mem_nil, or_false] at hf
      rw [hf, hF] at hx
      rw [← Option.some_injective _ hx]
      decide +kernel)).1 h).1 "a".toList (by simp)
  obtain ⟨-, x, ns, k1, k2, -⟩ := this
  obtain rfl := Option.some_injective _ (hF.symm.trans k1)
  have := load_iff.2 k2
  rw [show load 32 "5\n4294967296\n".toList = .error .unwrapNone by decide +kernel] at this
  cases this

/-- The file of cardinalities is missing, or the precision is 17 and the sketch `HyperLogLogPF`: the command does not
complete.  `HyperLogLogPlus` has precision 17. -/
example (c32 : Serde.Codec U32) (c64 : Serde.Codec U64) (env : Env) (he : 1 ≤ env.cpus) :
    let F : Files Text := fun a => if a = "c".toList then some "10\n20\n".toList else none
    let evl := fun type file => main Cfg.debug64 ln c32 c64 env (runCardinalitiesCommand 1 type 17 "out".toList 1 file)
    (∀ F', ¬ Completes (evl "hll".toList "c".toList) F F') ∧ (∀ F', ¬ Completes (evl "hllp".toList "d".toList) F F') ∧
    ∃ F', Completes (evl "hllp".toList "c".toList) F F' ∧
      F' "out/est-p17-cards-s64-r0.dat".toList = some (plusAtText Cfg.debug64 ln 17 (env.draw64 0) [10, 20]) := by
  intro F evl
  have hn : "out".toList ++ '/' :: s!"est-p{17}-cards-s64-r{0}.dat".toList = "out/est-p17-cards-s64-r0.dat".toList := by
    decide +kernel
  refine ⟨fun F' h => ?_, fun F' h => ?_, ?_⟩
  · obtain ⟨h1, -⟩ := ((C92_pf_cardinalities (cfg := Cfg.debug64) (ln := ln) rfl c32 c64 env he (j := 1) (p := 17)
      (runs := 1) (by norm_num) (by norm_num) (by norm_num) (out := "out".toList) (file := "c".toList) (by decide)
      (by decide) (by decide) (by decide) (by decide +kernel) (F := F) (F' := F')).1 h).1 0 (by norm_num)
    omega
  · obtain ⟨-, x, ts, k, -⟩ := ((C92_plus_cardinalities (cfg := Cfg.debug64) (ln := ln) rfl c32 c64 env he (j := 1)
      (p := 17) (runs := 1) (by norm_num) (by norm_num) (by norm_num) (out := "out".toList) (file := "d".toList)
      (by decide) (by decide) (by decide) (by decide) (by decide +kernel) (F := F) (F' := F')).1 h).1 0 (by norm_num)
    rw [show F "d".toList = none from if_neg (by decide)] at k
    cases k
  · refine ⟨fun a => if a = "out/est-p17-cards-s64-r0.dat".toList then
      some (plusAtText Cfg.debug64 ln 17 (env.draw64 0) [10, 20]) else F a,
      (C92_plus_cardinalities (cfg := Cfg.debug64) (ln := ln) rfl c32 c64 env he (j := 1)
      (p := 17) (runs := 1) (by norm_num) (by norm_num) (by norm_num) (out := "out".toList) (file := "c".toList)
      (by decide) (by decide) (by decide) (by decide) (by decide +kernel)).2 ⟨fun r hr => ?_, fun a ha => ?_⟩, if_pos rfl⟩
    · obtain rfl : r = 0 := by omega
      refine ⟨by decide, _, [10, 20], if_pos rfl, load_iff.1 (by decide +kernel), ?_⟩
      rw [hn, if_pos rfl]
    · have := ha 0 (by norm_num)
      rw [hn] at this
      exact if_neg this.symm

/-- Three random numbers. -/
example (c32 : Serde.Codec U32) (c64 : Serde.Codec U64) (env : Env) (he : 1 ≤ env.cpus) (F F' : Files Text)
    (h : Completes (main Cfg.debug64 ln c32 c64 env (prepareCommand 4 "64".toList 3 1 "in".toList)) F F') :
    F' "in/hashes-s64-r0.dat".toList = some (String.join [s!"{(env.draw64 0 0).toNat}\n", s!"{(env.draw64 0 1).toNat}\n",
      s!"{(env.draw64 0 2).toNat}\n"]).toList ∧ F' "b".toList = F "b".toList := by
  obtain ⟨h1, h2⟩ := (C92_gen (cfg := Cfg.debug64) (ln := ln) rfl c32 c64 env he (j := 4) (count := 3) (runs := 1)
    (by norm_num) (by norm_num) (by norm_num) (out := "in".toList) (by decide) (by decide) (by decide)).1.1 h
  have hn : "in".toList ++ '/' :: s!"hashes-s64-r{0}.dat".toList = "in/hashes-s64-r0.dat".toList := by decide +kernel
  refine ⟨?_, h2 _ fun r hr => ?_⟩
  · rw [← hn]
    exact h1 0 (by norm_num)
  · obtain rfl : r = 0 := by omega
    decide +kernel

end HLL
