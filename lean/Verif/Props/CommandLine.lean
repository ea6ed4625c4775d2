import Verif.Proofs.CommandLine
import Verif.Proofs.Numbers
import Verif.Props.Command

/-!
# Which command lines the evaluation program accepts, and what it does with them
-/

namespace HLL
open Spec F64 Evl Exp

variable {cfg : Cfg} {ln : F64 → F64} {c32 : Serde.Codec U32} {c64 : Serde.Codec U64} {env : Env}

namespace Evl

theorem main_body {front ts : List Text} {j : Text} {s : Sub} (hj : Jobs front j) (hb : Body ts s) :
    ∃ jobs : Option Text, jobs.getD "1".toList = j ∧ commandLine none (front ++ ts) = some (jobs, s) := by
  rcases hj with ⟨rfl, rfl⟩ | ⟨rfl, hp⟩
  · exact ⟨none, rfl, commandLine_iff.2 ⟨[], ts, .inl ⟨rfl, rfl⟩, by simp, rfl, hb⟩⟩
  · exact ⟨some j, rfl, commandLine_iff.2 ⟨_, ts, .inr ⟨rfl, hp⟩, by simp, rfl, hb⟩⟩

theorem unwrap_numeral {w : Nat} {t : Text} {n : Nat} (h : Numeral w t n) : unwrap (parse w t) = .ok n := by
  rw [parse_iff.2 h]; rfl

theorem unwrap_not_numeral {w : Nat} {t : Text} (h : ¬ ∃ n, Numeral w t n) :
    unwrap (parse w t) = .error .unwrapNone := by
  cases hp : parse w t with
  | none => rfl
  | some n => exact absurd ⟨n, parse_iff.1 hp⟩ h

theorem numeral_display {w n : Nat} (h : n < 2 ^ w) : Numeral w (display n) n := by
  rw [← parse_iff, parse_display, if_pos h]

theorem runHashes_precision {St I : Type} {api : Api St I} {ords : Nat → IterOrder × IterOrder} {w : Nat}
    {ofNat : Nat → I} {hash : I → U64} {t t' : Text} {n : Nat} (h : Numeral 8 t n) (h' : Numeral 8 t' n) :
    runHashes cfg api ords w ofNat hash t = runHashes cfg api ords w ofNat hash t' := by
  funext x
  rw [runHashes, runHashes, parse_iff.2 h, parse_iff.2 h']

theorem runCardinalities_precision {St I : Type} {api : Api St I} {ords : Nat → IterOrder × IterOrder}
    {rng : Nat → I} {hash : I → U64} {t t' : Text} {n : Nat} (h : Numeral 8 t n) (h' : Numeral 8 t' n) :
    runCardinalities cfg api ords rng hash t = runCardinalities cfg api ords rng hash t' := by
  funext x
  rw [runCardinalities, runCardinalities, parse_iff.2 h, parse_iff.2 h']

theorem once_plain {o : Options} {n : String} {v : Text} (h : Once o n v) (hp : ∀ e ∈ o, ∀ v ∈ e.2, Plain v) :
    Plain v := by
  have : (n, [v]) ∈ o.filter fun e => e.1 = n := by rw [h]; simp
  exact hp _ (List.mem_filter.1 this).1 v (by simp)

theorem runMain_hashes' {hashes cards : Nat → Text → Text → R Text} {size type mode precision output : Text}
    {threads : Nat} {inputs : List Text} {runs cds : Option Text} {o : Options} {P : Nat}
    (h : RunOptions o type mode precision output inputs runs cds) (hm : mode = "hashes".toList)
    (hP : Numeral 8 precision P) :
    runMain cfg hashes cards size threads o =
      .ok (.loop threads inputs.length fun i => hashesTask id (hashes i precision) P output inputs[i]) := by
  have h0 : inputs ≠ [] := by
    rcases h.modes with h | h
    · exact h.2
    · rw [hm] at h; exact absurd h.1 (by decide)
  have e4 : valuesOf o "input" = some inputs := by
    rw [valuesOf_eq, h.input]
    intro hv
    rw [valuesOf_none] at hv
    exact h0 (by rw [← h.input, hv]; rfl)
  rw [runMain, h.mode.valueOf, h.precision.valueOf, h.output.valueOf, e4, unwrap_some, unwrap_some, unwrap_some,
    unwrap_some, ok_bind, ok_bind, unwrap_numeral hP, ok_bind, ok_bind, if_pos hm, ok_bind]
  rfl

theorem runMain_cards' (hcfg : cfg.usizeBits = 64) {hashes cards : Nat → Text → Text → R Text}
    {size type mode precision output r c : Text}
    {threads : Nat} {inputs : List Text} {o : Options} {P N : Nat}
    (h : RunOptions o type mode precision output inputs (some r) (some c)) (hm : mode = "cardinalities".toList)
    (hP : Numeral 8 precision P) (hN : Numeral 64 r N) :
    runMain cfg hashes cards size threads o =
      .ok (.loop threads N fun i => cardsTask id (cards i precision) P size output c i) := by
  rw [runMain, h.mode.valueOf, h.precision.valueOf, h.output.valueOf, h.runs.valueOf, h.cardinalities.valueOf,
    unwrap_some, unwrap_some, unwrap_some, unwrap_some, unwrap_some, ok_bind, ok_bind, unwrap_numeral hP, ok_bind,
    ok_bind, if_neg (by rw [hm]; decide), if_pos hm, ok_bind, hcfg, unwrap_numeral hN, ok_bind, ok_bind]
  rfl

theorem runMain_precision {hashes cards : Nat → Text → Text → R Text} {size type mode precision output : Text}
    {threads : Nat} {inputs : List Text} {runs cds : Option Text} {o : Options}
    (h : RunOptions o type mode precision output inputs runs cds) (hP : ¬ ∃ P, Numeral 8 precision P) :
    runMain cfg hashes cards size threads o = .error .unwrapNone := by
  rw [runMain, h.mode.valueOf, h.precision.valueOf, unwrap_some, unwrap_some, ok_bind, ok_bind, unwrap_not_numeral hP]
  rfl

theorem runMain_runs (hcfg : cfg.usizeBits = 64) {hashes cards : Nat → Text → Text → R Text}
    {size type mode precision output r : Text}
    {threads : Nat} {inputs : List Text} {cds : Option Text} {o : Options} {P : Nat}
    (h : RunOptions o type mode precision output inputs (some r) cds) (hm : mode = "cardinalities".toList)
    (hP : Numeral 8 precision P) (hN : ¬ ∃ N, Numeral 64 r N) :
    runMain cfg hashes cards size threads o = .error .unwrapNone := by
  rw [runMain, h.mode.valueOf, h.precision.valueOf, h.output.valueOf, h.runs.valueOf,
    unwrap_some, unwrap_some, unwrap_some, unwrap_some, ok_bind, ok_bind, unwrap_numeral hP, ok_bind,
    ok_bind, if_neg (by rw [hm]; decide), if_pos hm, ok_bind, hcfg, unwrap_not_numeral hN]
  rfl

end Evl

/-- **C94**, which command lines are accepted. -/
theorem C94_accepted (argv : List Text) : main cfg ln c32 c64 env argv ≠ none ↔
    ∃ front j, Jobs front j ∧ (argv = front ∨
      (∃ o size count runs output, argv = front ++ "gen".toList :: words o ∧ GenOptions o size count runs output) ∨
      ∃ o type mode precision output inputs runs cardinalities, argv = front ++ "run".toList :: words o ∧
        RunOptions o type mode precision output inputs runs cardinalities) := by
  constructor
  · intro h
    rw [main, ne_eq, Option.map_eq_none_iff, ← ne_eq, Option.ne_none_iff_exists'] at h
    obtain ⟨⟨jobs, s⟩, h⟩ := h
    obtain ⟨front, ts, hj, -, rfl, hb⟩ := commandLine_iff.1 h
    refine ⟨front, _, hj, ?_⟩
    cases s with
    | none => exact .inl (by rw [show ts = [] from hb, List.append_nil])
    | gen m =>
      obtain ⟨rfl, s, c, r, o, hg⟩ := hb
      exact .inr (.inl ⟨m, s, c, r, o, rfl, hg⟩)
    | run m =>
      obtain ⟨rfl, t, m', p, o, i, r, c, hg⟩ := hb
      exact .inr (.inr ⟨m, t, m', p, o, i, r, c, rfl, hg⟩)
  · rintro ⟨front, j, hj, h⟩
    have key : ∀ {ts s}, Body ts s → main cfg ln c32 c64 env (front ++ ts) ≠ none := by
      intro ts s hb
      obtain ⟨jobs, -, h⟩ := main_body hj hb
      rw [main, h]
      simp
    rcases h with rfl | ⟨o, s, c, r, t, rfl, h⟩ | ⟨o, t, m, p, t', i, r, c, rfl, h⟩
    · have := key (ts := []) (s := .none) rfl
      rwa [List.append_nil] at this
    · exact key (s := .gen o) ⟨rfl, s, c, r, t, h⟩
    · exact key (s := .run o) ⟨rfl, t, m, p, t', i, r, c, h⟩

/-- **C94** without a subcommand: nothing happens, unless the number of jobs is not a number. -/
theorem C94_nothing (hcfg : cfg.usizeBits = 64) {front : List Text} {j : Text} (hj : Jobs front j) :
    ((∃ J, Numeral 64 j J) → main cfg ln c32 c64 env front = some (.ok .nothing)) ∧
    ((¬ ∃ J, Numeral 64 j J) → main cfg ln c32 c64 env front = some (.error .unwrapNone)) := by
  obtain ⟨jobs, rfl, h⟩ := main_body hj (ts := []) (s := .none) rfl
  rw [List.append_nil] at h
  rw [main, h, Option.map_some]
  dsimp only
  rw [hcfg]
  exact ⟨fun ⟨J, hJ⟩ => by rw [unwrap_numeral hJ]; rfl, fun hJ => by rw [unwrap_not_numeral hJ]; rfl⟩

/-- **C94** for `gen`: the order of the options does not matter, and the numbers can be written with a plus sign and
zeros; what is not a number makes the program panic before the first file. -/
theorem C94_gen (hcfg : cfg.usizeBits = 64) {front : List Text} {j size count runs output : Text} {o : Options}
    (hj : Jobs front j) (ho : GenOptions o size count runs output) :
    (∀ J C R, Numeral 64 j J → Numeral 64 count C → Numeral 64 runs R →
      main cfg ln c32 c64 env (front ++ "gen".toList :: words o) =
        main cfg ln c32 c64 env (prepareCommand J size C R output)) ∧
    ((¬ ∃ J C R, Numeral 64 j J ∧ Numeral 64 count C ∧ Numeral 64 runs R) →
      main cfg ln c32 c64 env (front ++ "gen".toList :: words o) = some (.error .unwrapNone)) := by
  obtain ⟨jobs, rfl, h⟩ := main_body hj (s := .gen o) ⟨rfl, _, _, _, _, ho⟩
  have hval := isValue_iff.2 (once_plain ho.output ho.plain)
  rw [main, h, Option.map_some]
  dsimp only
  rw [hcfg, ho.size.valueOf]
  have hg : ∀ draw threads, generateMain cfg draw threads o = (do
      let count ← unwrap (parse 64 count)
      let runs ← unwrap (parse 64 runs)
      pure (Plan.loop threads runs fun r => genTask id size output ((List.range count).map (draw r)) r)) := by
    intro draw threads
    rw [generateMain, ho.size.valueOf, ho.count.valueOf, ho.runs.valueOf, ho.output.valueOf, hcfg]
    rfl
  constructor
  · intro J C R hJ hC hR
    have hlt : ∀ {t n}, Numeral 64 t n → n < 2 ^ 64 := fun ⟨_, _, _, _, _, h⟩ => h
    obtain ⟨m1, m2⟩ := main_gen (ln := ln) (c32 := c32) (c64 := c64) (env := env) hcfg (hlt hJ) (hlt hC) (hlt hR) hval
    rw [unwrap_numeral hJ, ok_bind]
    rcases ho.sizes with rfl | rfl
    · rw [if_pos rfl, hg, unwrap_numeral hC, ok_bind, unwrap_numeral hR, ok_bind, m1]
      rfl
    · rw [if_neg (by decide), if_pos rfl, hg, unwrap_numeral hC, ok_bind, unwrap_numeral hR, ok_bind, m2]
      rfl
  · intro hn
    by_cases hJ : ∃ J, Numeral 64 (jobs.getD "1".toList) J
    · obtain ⟨J, hJ⟩ := hJ
      have hgn : ∀ draw threads, generateMain cfg draw threads o = .error .unwrapNone := by
        intro draw threads
        rw [hg]
        by_cases hC : ∃ C, Numeral 64 count C
        · obtain ⟨C, hC⟩ := hC
          rw [unwrap_numeral hC, ok_bind, unwrap_not_numeral fun ⟨R, hR⟩ => hn ⟨J, C, R, hJ, hC, hR⟩]
          rfl
        · rw [unwrap_not_numeral hC]
          rfl
      rw [unwrap_numeral hJ, ok_bind, hgn, hgn]
      rcases ho.sizes with rfl | rfl
      · rw [if_pos rfl]
      · rw [if_neg (by decide), if_pos rfl]
    · rw [unwrap_not_numeral hJ]
      rfl

/-- **C94** for `run --mode hashes`: likewise; the files can be given by several options `input`. -/
theorem C94_hashes (hcfg : cfg.usizeBits = 64) {front : List Text} {j type precision output : Text}
    {inputs : List Text} {runs cardinalities : Option Text} {o : Options} (hj : Jobs front j)
    (ho : RunOptions o type "hashes".toList precision output inputs runs cardinalities) :
    (∀ J P, Numeral 64 j J → Numeral 8 precision P →
      main cfg ln c32 c64 env (front ++ "run".toList :: words o) =
        main cfg ln c32 c64 env (runHashesCommand J type P output inputs)) ∧
    ((¬ ∃ J P, Numeral 64 j J ∧ Numeral 8 precision P) →
      main cfg ln c32 c64 env (front ++ "run".toList :: words o) = some (.error .unwrapNone)) := by
  obtain ⟨jobs, rfl, h⟩ := main_body hj (s := .run o) ⟨rfl, _, _, _, _, _, _, _, ho⟩
  have hval := isValue_iff.2 (once_plain ho.output ho.plain)
  have h0 : inputs ≠ [] := by
    rcases ho.modes with h | h
    · exact h.2
    · exact absurd h.1 (by decide)
  have hf : ∀ f ∈ inputs, isValue f = true := by
    intro f hf
    rw [← ho.input, List.mem_flatMap] at hf
    obtain ⟨e, he, hf⟩ := hf
    exact isValue_iff.2 (ho.plain e (List.mem_filter.1 he).1 f hf)
  rw [main, h, Option.map_some]
  dsimp only
  rw [hcfg, ho.type.valueOf]
  constructor
  · intro J P hJ hP
    have hJ' : J < 2 ^ 64 := by obtain ⟨_, _, _, _, _, h⟩ := hJ; exact h
    have hP' : P < 2 ^ 8 := by obtain ⟨_, _, _, _, _, h⟩ := hP; exact h
    obtain ⟨m1, m2⟩ := main_hashes (ln := ln) (c32 := c32) (c64 := c64) (env := env) hcfg hJ' hP' hval h0 hf
    have hd : Numeral 8 (toString P).toList P := by rw [← display_eq]; exact numeral_display hP'
    rw [unwrap_numeral hJ, ok_bind]
    rcases ho.types with rfl | rfl
    · rw [if_pos rfl, runMain_hashes' ho rfl hP, m1]
      simp only [Evl.run, runHashes_precision hP hd]
    · rw [if_neg (by decide), if_pos rfl, runMain_hashes' ho rfl hP, m2]
      simp only [Evl.runPlus, runHashes_precision hP hd]
  · intro hn
    by_cases hJ : ∃ J, Numeral 64 (jobs.getD "1".toList) J
    · obtain ⟨J, hJ⟩ := hJ
      have hP : ¬ ∃ P, Numeral 8 precision P := fun ⟨P, hP⟩ => hn ⟨J, P, hJ, hP⟩
      rw [unwrap_numeral hJ, ok_bind, runMain_precision ho hP, runMain_precision ho hP]
      rcases ho.types with rfl | rfl
      · rw [if_pos rfl]
      · rw [if_neg (by decide), if_pos rfl]
    · rw [unwrap_not_numeral hJ]
      rfl

/-- **C94** for `run --mode cardinalities`: likewise. -/
theorem C94_cardinalities (hcfg : cfg.usizeBits = 64) {front : List Text} {j type precision output runs file : Text}
    {inputs : List Text} {o : Options} (hj : Jobs front j)
    (ho : RunOptions o type "cardinalities".toList precision output inputs (some runs) (some file)) :
    (∀ J P R, Numeral 64 j J → Numeral 8 precision P → Numeral 64 runs R →
      main cfg ln c32 c64 env (front ++ "run".toList :: words o) =
        main cfg ln c32 c64 env (runCardinalitiesCommand J type P output R file)) ∧
    ((¬ ∃ J P R, Numeral 64 j J ∧ Numeral 8 precision P ∧ Numeral 64 runs R) →
      main cfg ln c32 c64 env (front ++ "run".toList :: words o) = some (.error .unwrapNone)) := by
  obtain ⟨jobs, rfl, h⟩ := main_body hj (s := .run o) ⟨rfl, _, _, _, _, _, _, _, ho⟩
  have hval := isValue_iff.2 (once_plain ho.output ho.plain)
  have hval2 := isValue_iff.2 (once_plain ho.cardinalities ho.plain)
  rw [main, h, Option.map_some]
  dsimp only
  rw [hcfg, ho.type.valueOf]
  constructor
  · intro J P R hJ hP hR
    have hJ' : J < 2 ^ 64 := by obtain ⟨_, _, _, _, _, h⟩ := hJ; exact h
    have hR' : R < 2 ^ 64 := by obtain ⟨_, _, _, _, _, h⟩ := hR; exact h
    have hP' : P < 2 ^ 8 := by obtain ⟨_, _, _, _, _, h⟩ := hP; exact h
    obtain ⟨m1, m2⟩ := main_cards (ln := ln) (c32 := c32) (c64 := c64) (env := env) hcfg hJ' hP' hR' hval hval2
    have hd : Numeral 8 (toString P).toList P := by rw [← display_eq]; exact numeral_display hP'
    rw [unwrap_numeral hJ, ok_bind]
    rcases ho.types with rfl | rfl
    · rw [if_pos rfl, runMain_cards' hcfg ho rfl hP hR, m1]
      simp only [Evl.runAt, runCardinalities_precision hP hd]
    · rw [if_neg (by decide), if_pos rfl, runMain_cards' hcfg ho rfl hP hR, m2]
      simp only [Evl.runPlusAt, runCardinalities_precision hP hd]
  · intro hn
    by_cases hJ : ∃ J, Numeral 64 (jobs.getD "1".toList) J
    · obtain ⟨J, hJ⟩ := hJ
      have key : ∀ hashes cards size threads, runMain cfg hashes cards size threads o = .error .unwrapNone := by
        intro hashes cards size threads
        by_cases hP : ∃ P, Numeral 8 precision P
        · obtain ⟨P, hP⟩ := hP
          exact runMain_runs hcfg ho rfl hP fun ⟨R, hR⟩ => hn ⟨J, P, R, hJ, hP, hR⟩
        · exact runMain_precision ho hP
      rw [unwrap_numeral hJ, ok_bind, key, key]
      rcases ho.types with rfl | rfl
      · rw [if_pos rfl]
      · rw [if_neg (by decide), if_pos rfl]
    · rw [unwrap_not_numeral hJ]
      rfl

/-- Two options `input`, another order than that of the script, a precision with a plus sign, and a directory with the
name `-`. -/
def exampleOptions : Options :=
  [("input", ["a.dat".toList, "b.dat".toList]), ("precision", ["+012".toList]), ("output", ["-".toList]),
    ("mode", ["hashes".toList]), ("input", ["c.dat".toList]), ("type", ["hllp".toList])]

example : words exampleOptions = ["--input".toList, "a.dat".toList, "b.dat".toList, "--precision".toList, "+012".toList,
    "--output".toList, "-".toList, "--mode".toList, "hashes".toList, "--input".toList, "c.dat".toList,
    "--type".toList, "hllp".toList] ∧
    RunOptions exampleOptions "hllp".toList "hashes".toList "+012".toList "-".toList
      ["a.dat".toList, "b.dat".toList, "c.dat".toList] none none ∧
    Jobs ["--jobs".toList, "08".toList] "08".toList ∧ Numeral 64 "08".toList 8 ∧ Numeral 8 "+012".toList 12 := by
  refine ⟨by decide +kernel, ⟨.inr rfl, .inl ⟨rfl, by simp⟩, by unfold exampleOptions; decide +kernel, ?_,
    by unfold Once exampleOptions; decide +kernel, by unfold Once exampleOptions; decide +kernel,
    by unfold Once exampleOptions; decide +kernel, by unfold Once exampleOptions; decide +kernel,
    by unfold Optional exampleOptions; decide +kernel, by unfold Optional exampleOptions; decide +kernel,
    by unfold exampleOptions; decide +kernel, by unfold exampleOptions; decide +kernel⟩, .inr ⟨rfl, .inr (by decide)⟩,
    parse_iff.1 (by decide +kernel), parse_iff.1 (by decide +kernel)⟩
  intro e he v hv
  rw [← isValue_iff]
  revert e v
  unfold exampleOptions
  decide +kernel

/-- With any number of threads this is the command with the options in the order of the script. -/
example (hcfg : cfg.usizeBits = 64) (ho : RunOptions exampleOptions "hllp".toList "hashes".toList "+012".toList "-".toList
      ["a.dat".toList, "b.dat".toList, "c.dat".toList] none none) :
    main cfg ln c32 c64 env ("--jobs".toList :: "08".toList :: "run".toList :: words exampleOptions) =
      main cfg ln c32 c64 env (runHashesCommand 8 "hllp".toList 12 "-".toList
        ["a.dat".toList, "b.dat".toList, "c.dat".toList]) :=
  (C94_hashes hcfg (.inr ⟨rfl, .inr (by decide)⟩) ho).1 8 12 (parse_iff.1 (by decide +kernel))
    (parse_iff.1 (by decide +kernel))

/-- An option given twice, two values, a value that is not possible, a missing option, a word without an option. -/
example : ∀ ts ∈ [["--size", "32", "--count", "1", "--runs", "1", "--output", "d", "--count", "1"],
    ["--size", "32", "--count", "1", "2", "--runs", "1", "--output", "d"],
    ["--size", "16", "--count", "1", "--runs", "1", "--output", "d"],
    ["--size", "32", "--count", "1", "--runs", "1"],
    ["x", "--size", "32", "--count", "1", "--runs", "1", "--output", "d"]],
    (commandLine none ("gen".toList :: ts.map String.toList)).isNone = true := by
  decide +kernel

end HLL
