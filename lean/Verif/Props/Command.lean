import Verif.Model.Command
import Verif.Props.Parallel
import Verif.Props.Experiment

/-!
# The experiments from beginning to end
-/

namespace HLL
open Spec F64 Evl Exp

variable {cfg : Cfg} {ln : F64 → F64} {c32 : Serde.Codec U32} {c64 : Serde.Codec U64} {env : Env} {p n jobs k : Nat}

namespace Evl

theorem str_nat (n : Nat) : Exp.str (n : ℤ) = display n := by
  rw [Exp.str, display_eq]; rfl

theorem isValue_display (n : Nat) : isValue (display n) = true := by
  have h : (display n).head? ≠ some '-' := by
    intro e
    have := display_isDigit (List.mem_of_mem_head? e)
    simp at this
  simp [isValue, h]

theorem parse_option {opts : List Opt} {cur : Option (Opt × List Text)} {m m' : Matches} {t : Text} {ts : List Text}
    {o : Opt} (h1 : isValue t = false) (h2 : opts.find? (fun o => ("--" ++ o.name).toList = t) = some o)
    (h3 : closeOption cur m = some m') (h4 : valuesOf m' o.name = none) :
    parseArgs opts cur m (t :: ts) = parseArgs opts (some (o, [])) m' ts := by
  cases cur <;> rw [parseArgs, h1, if_neg (by simp), h2] <;> simp [h3, h4]

theorem parse_value {opts : List Opt} {o : Opt} {vs : List Text} {m : Matches} {t : Text} {ts : List Text}
    (h1 : isValue t = true) (h2 : vs = [] ∨ o.multiple = true) (h3 : o.accepts t = true) :
    parseArgs opts (some (o, vs)) m (t :: ts) = parseArgs opts (some (o, vs ++ [t])) m ts := by
  rw [parseArgs, h1, if_pos rfl]
  simp [h2, h3]

/-- The options that the script gives to `gen`. -/
theorem parse_gen {size count runs output : Text} (hs : size = "32".toList ∨ size = "64".toList)
    (hc : isValue count = true) (hr : isValue runs = true) (ho : isValue output = true) :
    parseArgs genOpts none [] ["--size".toList, size, "--count".toList, count, "--runs".toList, runs,
      "--output".toList, output] =
      some [("size", [size]), ("count", [count]), ("runs", [runs]), ("output", [output])] := by
  rw [parse_option (o := { name := "size", possible := some ["32", "64"] }) (by decide) (by decide +kernel) rfl rfl,
    parse_value (by rcases hs with rfl | rfl <;> decide) (.inl rfl) (by rcases hs with rfl | rfl <;> decide),
    parse_option (o := { name := "count" }) (by decide) (by decide +kernel) rfl rfl,
    parse_value hc (.inl rfl) rfl,
    parse_option (o := { name := "runs" }) (by decide) (by decide +kernel) rfl rfl,
    parse_value hr (.inl rfl) rfl,
    parse_option (o := { name := "output" }) (by decide) (by decide +kernel) rfl rfl,
    parse_value ho (.inl rfl) rfl]
  rfl

/-- The options that the script gives to `run` for files of hashes. -/
theorem parse_run_hashes {type precision output : Text} {files : List Text}
    (ht : type = "hll".toList ∨ type = "hllp".toList) (hp : isValue precision = true) (ho : isValue output = true)
    (h0 : files ≠ []) (hf : ∀ f ∈ files, isValue f = true) :
    parseArgs runOpts none [] (["--type".toList, type, "--mode".toList, "hashes".toList, "--precision".toList,
      precision, "--output".toList, output] ++ "--input".toList :: files) =
      some [("type", [type]), ("mode", ["hashes".toList]), ("precision", [precision]), ("output", [output]),
        ("input", files)] := by
  have key : ∀ (fs vs : List Text) (m : Matches), vs ++ fs ≠ [] → (∀ f ∈ fs, isValue f = true) →
      parseArgs runOpts (some ({ name := "input", multiple := true }, vs)) m fs =
        some (m ++ [("input", vs ++ fs)]) := by
    intro fs
    induction fs with
    | nil =>
      intro vs m hv _
      rw [List.append_nil] at hv ⊢
      cases vs with
      | nil => exact absurd rfl hv
      | cons v vs => rfl
    | cons f fs ih =>
      intro vs m hv hf
      rw [parse_value (hf f (by simp)) (.inr rfl) rfl, ih _ _ (by simp) fun g hg => hf g (by simp [hg])]
      simp
  simp only [List.cons_append, List.nil_append]
  rw [parse_option (o := { name := "type", possible := some ["hll", "hllp"] }) (by decide) (by decide +kernel) rfl rfl,
    parse_value (by rcases ht with rfl | rfl <;> decide) (.inl rfl) (by rcases ht with rfl | rfl <;> decide),
    parse_option (o := { name := "mode", possible := some ["hashes", "cardinalities"] }) (by decide)
      (by decide +kernel) rfl rfl,
    parse_value (by decide) (.inl rfl) (by decide),
    parse_option (o := { name := "precision" }) (by decide) (by decide +kernel) rfl rfl,
    parse_value hp (.inl rfl) rfl,
    parse_option (o := { name := "output" }) (by decide) (by decide +kernel) rfl rfl,
    parse_value ho (.inl rfl) rfl,
    parse_option (o := { name := "input", multiple := true }) (by decide) (by decide +kernel) rfl rfl,
    key _ _ _ (by simpa using h0) hf]
  rfl

/-- The options that the script gives to `run` for cardinalities. -/
theorem parse_run_cards {type precision output runs cards : Text}
    (ht : type = "hll".toList ∨ type = "hllp".toList) (hp : isValue precision = true) (ho : isValue output = true)
    (hr : isValue runs = true) (hc : isValue cards = true) :
    parseArgs runOpts none [] (["--type".toList, type, "--mode".toList, "cardinalities".toList, "--precision".toList,
      precision, "--output".toList, output] ++ ["--runs".toList, runs, "--cardinalities".toList, cards]) =
      some [("type", [type]), ("mode", ["cardinalities".toList]), ("precision", [precision]), ("output", [output]),
        ("runs", [runs]), ("cardinalities", [cards])] := by
  simp only [List.cons_append, List.nil_append]
  rw [parse_option (o := { name := "type", possible := some ["hll", "hllp"] }) (by decide) (by decide +kernel) rfl rfl,
    parse_value (by rcases ht with rfl | rfl <;> decide) (.inl rfl) (by rcases ht with rfl | rfl <;> decide),
    parse_option (o := { name := "mode", possible := some ["hashes", "cardinalities"] }) (by decide)
      (by decide +kernel) rfl rfl,
    parse_value (by decide) (.inl rfl) (by decide),
    parse_option (o := { name := "precision" }) (by decide) (by decide +kernel) rfl rfl,
    parse_value hp (.inl rfl) rfl,
    parse_option (o := { name := "output" }) (by decide) (by decide +kernel) rfl rfl,
    parse_value ho (.inl rfl) rfl,
    parse_option (o := { name := "runs" }) (by decide) (by decide +kernel) rfl rfl,
    parse_value hr (.inl rfl) rfl,
    parse_option (o := { name := "cardinalities" }) (by decide) (by decide +kernel) rfl rfl,
    parse_value hc (.inl rfl) rfl]
  rfl

theorem commandLine_jobs (j : Nat) (ts : List Text) :
    commandLine none ("--jobs".toList :: display j :: ts) = commandLine (some (display j)) ts := by
  rw [commandLine, if_neg (by decide), if_neg (by decide), if_pos rfl]
  simp [isValue_display]

theorem commandLine_gen {jobs : Option Text} {ts : List Text} {m : Matches} (h : parseArgs genOpts none [] ts = some m)
    (hr : given m ["size", "count", "runs", "output"] = true) :
    commandLine jobs ("gen".toList :: ts) = some (jobs, .gen m) := by
  cases ts <;> rw [commandLine, if_pos rfl, h] <;> simp [hr]

theorem commandLine_run {jobs : Option Text} {ts : List Text} {m : Matches} (h : parseArgs runOpts none [] ts = some m)
    (hr : runRequired m = true) :
    commandLine jobs ("run".toList :: ts) = some (jobs, .run m) := by
  cases ts <;> rw [commandLine, if_neg (by decide), if_pos rfl, h] <;> simp [hr]

theorem unwrap_parse {w n : Nat} (h : n < 2 ^ w) : unwrap (parse w (display n)) = .ok n := by
  rw [parse_display, if_pos h]; rfl

theorem unwrap_some {α : Type} (a : α) : unwrap (some a) = .ok a := rfl

theorem valueOf_head (n : String) (v : Text) (m : Matches) : valueOf ((n, [v]) :: m) n = some v := by
  simp [valueOf, valuesOf]

theorem generateMain_ok (hcfg : cfg.usizeBits = 64) {draw : Nat → Nat → Nat} {threads count runs : Nat}
    (hc : count < 2 ^ 64) (hr : runs < 2 ^ 64) (size output : Text) :
    generateMain cfg draw threads [("size", [size]), ("count", [display count]), ("runs", [display runs]),
      ("output", [output])] =
      .ok (.loop threads runs fun r => genTask id size output ((List.range count).map (draw r)) r) := by
  have hc' := unwrap_parse (w := cfg.usizeBits) (by rwa [hcfg])
  have hr' := unwrap_parse (w := cfg.usizeBits) (by rwa [hcfg])
  show (do
    let count ← unwrap (parse cfg.usizeBits (display count))
    let runs ← unwrap (parse cfg.usizeBits (display runs))
    pure (Plan.loop threads runs fun r => genTask id size output ((List.range count).map (draw r)) r)) = _
  rw [unwrap_parse (by rwa [hcfg]), ok_bind, unwrap_parse (by rwa [hcfg]), ok_bind]
  rfl

/-- `evl --jobs j gen --size 64 ...` -/
theorem main_gen (hcfg : cfg.usizeBits = 64) {j count runs : Nat} (hj : j < 2 ^ 64) (hc : count < 2 ^ 64)
    (hr : runs < 2 ^ 64) {output : Text} (ho : isValue output = true) :
    main cfg ln c32 c64 env (prepareCommand j "32".toList count runs output) =
      some (.ok (.loop (if j = 0 then env.cpus else j) runs fun r => genTask id "32".toList output
        ((List.range count).map fun i => (env.draw32 r i).toNat) r)) ∧
    main cfg ln c32 c64 env (prepareCommand j "64".toList count runs output) =
      some (.ok (.loop (if j = 0 then env.cpus else j) runs fun r => genTask id "64".toList output
        ((List.range count).map fun i => (env.draw64 r i).toNat) r)) := by
  have hj' := unwrap_parse (w := cfg.usizeBits) (n := j) (by rwa [hcfg])
  constructor
  · rw [prepareCommand, str_nat, str_nat, str_nat, main, commandLine_jobs, commandLine_gen (parse_gen (.inl rfl)
      (isValue_display _) (isValue_display _) ho) rfl]
    simp only [Option.map_some, Option.getD_some, hj', ok_bind]
    rw [valueOf_head, if_pos rfl, generateMain_ok hcfg hc hr]
  · rw [prepareCommand, str_nat, str_nat, str_nat, main, commandLine_jobs, commandLine_gen (parse_gen (.inr rfl)
      (isValue_display _) (isValue_display _) ho) rfl]
    simp only [Option.map_some, Option.getD_some, hj', ok_bind]
    rw [valueOf_head, if_neg (by decide), if_pos rfl, generateMain_ok hcfg hc hr]

theorem runMain_hashes {hashes cards : Nat → Text → Text → R Text} {size type output : Text} {threads : Nat}
    {files : List Text} (hp : p < 256) :
    runMain cfg hashes cards size threads [("type", [type]), ("mode", ["hashes".toList]), ("precision", [display p]),
      ("output", [output]), ("input", files)] =
      .ok (.loop threads files.length fun i => hashesTask id (hashes i (display p)) p output files[i]) := by
  generalize hm : ([("type", [type]), ("mode", ["hashes".toList]), ("precision", [display p]),
    ("output", [output]), ("input", files)] : Matches) = m
  have e1 : valueOf m "mode" = some "hashes".toList := by rw [← hm]; rfl
  have e2 : valueOf m "precision" = some (display p) := by rw [← hm]; rfl
  have e3 : valueOf m "output" = some output := by rw [← hm]; rfl
  have e4 : valuesOf m "input" = some files := by rw [← hm]; simp [valuesOf]
  rw [runMain, e1, e2, e3, e4, unwrap_some, unwrap_some, unwrap_some, unwrap_some, ok_bind, ok_bind, unwrap_parse hp,
    ok_bind, ok_bind, if_pos rfl, ok_bind]
  rfl

theorem runMain_cards (hcfg : cfg.usizeBits = 64) {hashes cards : Nat → Text → Text → R Text}
    {size type output file : Text} {threads runs : Nat} (hr : runs < 2 ^ 64) (hp : p < 256) :
    runMain cfg hashes cards size threads [("type", [type]), ("mode", ["cardinalities".toList]),
      ("precision", [display p]), ("output", [output]), ("runs", [display runs]), ("cardinalities", [file])] =
      .ok (.loop threads runs fun r => cardsTask id (cards r (display p)) p size output file r) := by
  generalize hm : ([("type", [type]), ("mode", ["cardinalities".toList]), ("precision", [display p]),
    ("output", [output]), ("runs", [display runs]), ("cardinalities", [file])] : Matches) = m
  have e1 : valueOf m "mode" = some "cardinalities".toList := by rw [← hm]; rfl
  have e2 : valueOf m "precision" = some (display p) := by rw [← hm]; rfl
  have e3 : valueOf m "output" = some output := by rw [← hm]; rfl
  have e4 : valueOf m "runs" = some (display runs) := by rw [← hm]; rfl
  have e5 : valueOf m "cardinalities" = some file := by rw [← hm]; rfl
  rw [runMain, e1, e2, e3, e4, e5, unwrap_some, unwrap_some, unwrap_some, unwrap_some, unwrap_some, ok_bind, ok_bind,
    unwrap_parse hp, ok_bind, ok_bind, if_neg (by decide), if_pos rfl, ok_bind, unwrap_parse (by rwa [hcfg]), ok_bind,
    ok_bind]
  rfl

/-- `evl --jobs j run --type hll --mode hashes ...`, and the same with `hllp`. -/
theorem main_hashes (hcfg : cfg.usizeBits = 64) {j : Nat} (hj : j < 2 ^ 64) (hp : p < 256) {output : Text}
    (ho : isValue output = true) {files : List Text} (h0 : files ≠ []) (hf : ∀ f ∈ files, isValue f = true) :
    main cfg ln c32 c64 env (runHashesCommand j "hll".toList p output files) =
      some (.ok (.loop (if j = 0 then env.cpus else j) files.length fun i =>
        hashesTask id (Evl.run cfg ln c32 (env.ords i) (toString p).toList) p output files[i])) ∧
    main cfg ln c32 c64 env (runHashesCommand j "hllp".toList p output files) =
      some (.ok (.loop (if j = 0 then env.cpus else j) files.length fun i =>
        hashesTask id (runPlus cfg ln c64 (env.ords i) (toString p).toList) p output files[i])) := by
  have hj' := unwrap_parse (w := cfg.usizeBits) (n := j) (by rwa [hcfg])
  rw [← display_eq]
  constructor
  · rw [runHashesCommand, runCommand, str_nat, str_nat, main, List.cons_append, List.cons_append, List.cons_append,
      commandLine_jobs, commandLine_run (parse_run_hashes (.inl rfl) (isValue_display _) ho h0 hf) rfl]
    simp only [Option.map_some, Option.getD_some, hj', ok_bind]
    rw [valueOf_head, if_pos rfl, runMain_hashes hp]
  · rw [runHashesCommand, runCommand, str_nat, str_nat, main, List.cons_append, List.cons_append, List.cons_append,
      commandLine_jobs, commandLine_run (parse_run_hashes (.inr rfl) (isValue_display _) ho h0 hf) rfl]
    simp only [Option.map_some, Option.getD_some, hj', ok_bind]
    rw [valueOf_head, if_neg (by decide), if_pos rfl, runMain_hashes hp]

/-- `evl --jobs j run --type hll --mode cardinalities ...`, and the same with `hllp`. -/
theorem main_cards (hcfg : cfg.usizeBits = 64) {j runs : Nat} (hj : j < 2 ^ 64) (hp : p < 256) (hr : runs < 2 ^ 64)
    {output file : Text} (ho : isValue output = true) (hf : isValue file = true) :
    main cfg ln c32 c64 env (runCardinalitiesCommand j "hll".toList p output runs file) =
      some (.ok (.loop (if j = 0 then env.cpus else j) runs fun r =>
        cardsTask id (runAt cfg ln c32 (env.ords r) (env.draw32 r) (toString p).toList) p "32".toList output file r)) ∧
    main cfg ln c32 c64 env (runCardinalitiesCommand j "hllp".toList p output runs file) =
      some (.ok (.loop (if j = 0 then env.cpus else j) runs fun r =>
        cardsTask id (runPlusAt cfg ln c64 (env.ords r) (env.draw64 r) (toString p).toList) p "64".toList output
          file r)) := by
  have hj' := unwrap_parse (w := cfg.usizeBits) (n := j) (by rwa [hcfg])
  rw [← display_eq]
  constructor
  · rw [runCardinalitiesCommand, runCommand, str_nat, str_nat, str_nat, main, List.cons_append, List.cons_append,
      List.cons_append, commandLine_jobs, commandLine_run (parse_run_cards (.inl rfl) (isValue_display _) ho
        (isValue_display _) hf) rfl]
    simp only [Option.map_some, Option.getD_some, hj', ok_bind]
    rw [valueOf_head, if_pos rfl, runMain_cards hcfg hr hp]
  · rw [runCardinalitiesCommand, runCommand, str_nat, str_nat, str_nat, main, List.cons_append, List.cons_append,
      List.cons_append, commandLine_jobs, commandLine_run (parse_run_cards (.inr rfl) (isValue_display _) ho
        (isValue_display _) hf) rfl]
    simp only [Option.map_some, Option.getD_some, hj', ok_bind]
    rw [valueOf_head, if_neg (by decide), if_pos rfl, runMain_cards hcfg hr hp]

/-! ## Executions of a command -/

/-- The command starts a loop, none of its tasks ever panics, and, whatever was done so far, there is a next call until
all of them are finished, which they are after a bounded number of calls. -/
def Sure (plan : Option (R Plan)) (F : Files Text) : Prop :=
  ∃ jobs n T, plan = some (.ok (.loop jobs n T)) ∧ (∃ B, ∀ k c, Exec T jobs k (start F) c → k ≤ B) ∧
    ∀ k c, Exec T jobs k (start F) c →
      (∀ i, c.stage i ≠ .panicked) ∧ ((∃ i, c.stage i ≠ .finished) → ∃ c', Next T jobs c c')

/-- A loop whose tasks do not share files and do not panic. -/
theorem sure_loop {plan : Option (R Plan)} {T : Fin n → Evl.Task Text} {F : Files Text} {want : Fin n → Text}
    (hplan : plan = some (.ok (.loop jobs n T))) (hj : 1 ≤ jobs)
    (hio : ∀ i j a, (T i).input = some a → (T j).output ≠ a) (hd : ∀ i j, (T i).output = (T j).output → i = j)
    (hres : ∀ i, (T i).result F = .ok (want i)) :
    Sure plan F ∧ ∀ F', Completes plan F F' →
      (∀ i, F' (T i).output = some (want i)) ∧ ∀ a, (∀ i, (T i).output ≠ a) → F' a = F a := by
  subst hplan
  have hd' : Function.Injective fun i => (T i).output := fun i j e => hd i j e
  constructor
  · refine ⟨jobs, n, T, rfl, ⟨∑ i, ((T i).cost F + 5), fun k c h => (C89_ends hj hio (.inl hd) h).2⟩, fun k c h => ?_⟩
    have hp : ∀ i, c.stage i ≠ .panicked := by
      intro i hi
      obtain ⟨⟨e, he⟩, -⟩ := ((C89_tasks hio hd h).2 i).2.1 hi
      rw [hres] at he
      cases he
    refine ⟨hp, fun ⟨i, hi⟩ => (h.inv hio (.inl hd')).progress hj hio h.running ⟨i, ?_⟩⟩
    have := hp i
    cases e : c.stage i <;> simp_all [Stage.over]
  · rintro F' (⟨h, -⟩ | ⟨jobs', n', T', k, c, h, hx, hf, rfl⟩)
    · cases h
    · cases h
      obtain ⟨h1, h2⟩ := C89_tasks hio hd hx
      refine ⟨fun i => ?_, h1⟩
      obtain ⟨y, e1, e2⟩ := (h2 i).1 (hf i)
      rw [hres] at e1
      cases e1
      exact e2

/-- A command that is sure can be executed to its end. -/
theorem Sure.completes {plan : Option (R Plan)} {F : Files Text} (h : Sure plan F) : ∃ F', Completes plan F F' := by
  obtain ⟨jobs, n, T, rfl, ⟨B, hB⟩, hn⟩ := h
  have key : ∀ m k c, Exec T jobs k (start F) c → B ≤ k + m → ∃ F', Completes (some (.ok (.loop jobs n T))) F F' := by
    intro m
    induction m with
    | zero =>
      intro k c hx hk
      by_cases hf : ∃ i, c.stage i ≠ .finished
      · obtain ⟨c', hc⟩ := (hn k c hx).2 hf
        have := hB _ _ (hx.step hc)
        omega
      · push Not at hf
        exact ⟨_, .inr ⟨jobs, n, T, k, c, rfl, hx, hf, rfl⟩⟩
    | succ m ih =>
      intro k c hx hk
      by_cases hf : ∃ i, c.stage i ≠ .finished
      · obtain ⟨c', hc⟩ := (hn k c hx).2 hf
        exact ih _ _ (hx.step hc) (by omega)
      · push Not at hf
        exact ⟨_, .inr ⟨jobs, n, T, k, c, rfl, hx, hf, rfl⟩⟩
  exact key B 0 _ .refl (by omega)

/-! ## Names -/

/-- The parts before and after the first occurrence of a character. -/
theorem split_first {c : Char} : ∀ {x y u v : Text}, c ∉ x → c ∉ y → x ++ c :: u = y ++ c :: v → x = y ∧ u = v
  | [], [], _, _, _, _, e => ⟨rfl, by simpa using e⟩
  | [], d :: y, _, _, _, hy, e => by
    simp only [List.nil_append, List.cons_append, List.cons.injEq] at e
    exact absurd (e.1 ▸ List.mem_cons_self) hy
  | d :: x, [], _, _, hx, _, e => by
    simp only [List.nil_append, List.cons_append, List.cons.injEq] at e
    exact absurd (e.1 ▸ List.mem_cons_self) hx
  | d :: x, d' :: y, _, _, hx, hy, e => by
    simp only [List.cons_append, List.cons.injEq] at e
    obtain ⟨e1, e2⟩ := split_first (fun h => hx (List.mem_cons_of_mem _ h)) (fun h => hy (List.mem_cons_of_mem _ h)) e.2
    exact ⟨by rw [e.1, e1], e2⟩

/-- The parts before and after the last slash. -/
theorem slash_inj {a a' b b' : Text} (hb : '/' ∉ b) (hb' : '/' ∉ b') (h : a ++ '/' :: b = a' ++ '/' :: b') :
    a = a' ∧ b = b' := by
  have hr := congrArg List.reverse h
  rw [List.reverse_append, List.reverse_append, List.reverse_cons, List.reverse_cons, List.append_assoc,
    List.append_assoc] at hr
  obtain ⟨e1, e2⟩ := split_first (by simpa using hb) (by simpa using hb') hr
  exact ⟨List.reverse_injective e2, List.reverse_injective e1⟩

/-- A name that `glob` finds with the pattern `*.dat`. -/
structure Dat (b : Text) : Prop where
  slash : '/' ∉ b
  dot : b.head? ≠ some '.'
  ext : ".dat".toList <:+ b

theorem dat_append {a b : Text} (ha : '/' ∉ a) (hb : '/' ∉ b) (c : Char) (hc : c ≠ '/') (hc' : c ≠ '.') :
    Dat (c :: a ++ b ++ ".dat".toList) := by
  refine ⟨?_, ?_, List.suffix_append _ _⟩
  · simp [ha, hb, hc.symm]
  · simpa using hc'

theorem dat_generate {size : Text} (hs : '/' ∉ size) (r : Nat) : Dat (generateName size r) := by
  have h1 := display_no (c := '/') (n := r) (by decide)
  unfold generateName
  exact dat_append (a := "ashes-s".toList ++ size ++ "-r".toList) (by simp [hs]) h1 'h' (by decide) (by decide)

theorem dat_hashes {b : Text} (h : Dat b) (p : Nat) : Dat (hashesName p b) where
  slash := by
    have := display_no (c := '/') (n := p) (by decide)
    simp [hashesName, h.slash, this]
  dot := by simp [hashesName]
  ext := h.ext.trans (by rw [hashesName]; exact List.suffix_append _ _)

theorem dat_cards {size : Text} (hs : '/' ∉ size) (p r : Nat) : Dat (cardsName p size r) := by
  have h1 := display_no (c := '/') (n := p) (by decide)
  have h2 := display_no (c := '/') (n := r) (by decide)
  unfold cardsName
  exact dat_append (a := "st-p".toList ++ display p ++ "-cards-s".toList ++ size ++ "-r".toList) (by simp [hs, h1]) h2
    'e' (by decide) (by decide)

theorem Dat.fileName {b : Text} (h : Dat b) (dir : Text) : fileName (dir ++ '/' :: b) = some b := by
  have h0 : b ≠ [] := by
    rintro rfl
    have := h.ext.length_le
    simp at this
  refine (C89_file_name h0 ?_ ?_ h.slash 0 (out := ['a']) (by simp) (by simp) "" 0).2.1 dir
  · rintro rfl; exact h.dot rfl
  · rintro rfl; exact h.dot rfl

theorem join_plain {out : Text} (h0 : out ≠ []) (hl : out.getLast? ≠ some '/') (b : Text) :
    join out b = out ++ '/' :: b := by simp [join, h0, hl]

theorem list_of_map {α β : Type} {f : α → β} : ∀ {L : List β}, (∀ a ∈ L, ∃ r, a = f r) → ∃ rs : List α, L = rs.map f
  | [], _ => ⟨[], rfl⟩
  | a :: L, h => by
    obtain ⟨r, rfl⟩ := h a (by simp)
    obtain ⟨rs, rfl⟩ := list_of_map fun b hb => h b (List.mem_cons_of_mem _ hb)
    exact ⟨r :: rs, rfl⟩

/-- What `glob` finds in a directory in which only the files `base 0, ..., base (runs - 1)` were written. -/
theorem glob_new {F F' : Files Text} {dir : Text} {base : Nat → Text} {runs : Nat} {L : List Text}
    (h0 : Globbed F dir []) (hnew : ∀ r < runs, F' (dir ++ '/' :: base r) ≠ none)
    (hold : ∀ a, (∀ r < runs, dir ++ '/' :: base r ≠ a) → F' a = F a) (hb : ∀ r, Dat (base r))
    (hinj : ∀ r r', base r = base r' → r = r') (hL : Globbed F' dir L) :
    ∃ rs : List Nat, rs.Perm (List.range runs) ∧ L = rs.map fun r => dir ++ '/' :: base r := by
  have hmem : ∀ a, a ∈ L ↔ ∃ r < runs, a = dir ++ '/' :: base r := by
    intro a
    rw [hL.2]
    constructor
    · rintro ⟨h1, h2⟩
      by_contra hc
      push Not at hc
      rw [hold a fun r hr e => hc r hr e.symm] at h1
      have := (h0.2 a).2 ⟨h1, h2⟩
      simp at this
    · rintro ⟨r, hr, rfl⟩
      exact ⟨hnew r hr, _, rfl, (hb r).slash, (hb r).dot, (hb r).ext⟩
  obtain ⟨rs, rfl⟩ := list_of_map (f := fun r => dir ++ '/' :: base r) fun a ha => by
    obtain ⟨r, -, e⟩ := (hmem a).1 ha
    exact ⟨r, e⟩
  refine ⟨rs, (List.perm_ext_iff_of_nodup hL.1.of_map List.nodup_range).2 fun r => ?_, rfl⟩
  rw [List.mem_range]
  constructor
  · intro hr
    obtain ⟨r', h1, h2⟩ := (hmem _).1 (List.mem_map_of_mem hr)
    have := List.append_cancel_left h2
    rw [hinj r r' (by simpa using this)]
    exact h1
  · intro hr
    obtain ⟨r', h1, h2⟩ := List.mem_map.1 ((hmem _).2 ⟨r, hr, rfl⟩)
    have := List.append_cancel_left h2
    rw [← hinj r' r (by simpa using this)]
    exact h1

/-- The files that were written are what `glob` finds. -/
theorem glob_exists {F F' : Files Text} {dir : Text} {base : Nat → Text} {runs : Nat}
    (h0 : Globbed F dir []) (hnew : ∀ r < runs, F' (dir ++ '/' :: base r) ≠ none)
    (hold : ∀ a, (∀ r < runs, dir ++ '/' :: base r ≠ a) → F' a = F a) (hb : ∀ r, Dat (base r))
    (hinj : ∀ r r', base r = base r' → r = r') :
    Globbed F' dir ((List.range runs).map fun r => dir ++ '/' :: base r) := by
  refine ⟨List.nodup_range.map fun r r' e => hinj _ _ (by simpa using List.append_cancel_left e), fun a => ?_⟩
  rw [List.mem_map]
  constructor
  · rintro ⟨r, hr, rfl⟩
    exact ⟨hnew r (List.mem_range.1 hr), _, rfl, (hb r).slash, (hb r).dot, (hb r).ext⟩
  · rintro ⟨h1, h2⟩
    by_contra hc
    push Not at hc
    rw [hold a fun r hr => hc r (List.mem_range.2 hr)] at h1
    have := (h0.2 a).2 ⟨h1, h2⟩
    simp at this

/-! ## The three commands -/

/-- `gen`. -/
theorem stage_gen {plan : Option (R Plan)} {size inp : Text} {values : Nat → List Nat} {runs : Nat} {F : Files Text}
    (hplan : plan = some (.ok (.loop jobs runs fun r => genTask id size inp (values r) r))) (hj : 1 ≤ jobs)
    (h0 : inp ≠ []) (hl : inp.getLast? ≠ some '/') :
    Sure plan F ∧ ∀ F', Completes plan F F' →
      (∀ r < runs, F' (inp ++ '/' :: generateName size r) = some (generate (values r))) ∧
      ∀ a, (∀ r < runs, inp ++ '/' :: generateName size r ≠ a) → F' a = F a := by
  obtain ⟨k1, k2⟩ := sure_loop (F := F) hplan hj (by simp [genTask])
    (fun i j e => Fin.ext (C78_names (join_inj e))) (want := fun r => generate (values r)) (fun _ => rfl)
  refine ⟨k1, fun F' h => ?_⟩
  obtain ⟨k3, k4⟩ := k2 F' h
  refine ⟨fun r hr => ?_, fun a ha => k4 a fun i => ?_⟩
  · rw [← join_plain h0 hl]
    exact k3 ⟨r, hr⟩
  · have := ha i i.2
    rwa [← join_plain h0 hl] at this

/-- The tasks of `run` for hashes. -/
theorem tasks_hashes {inp out : Text} {base : Nat → Text} {text : Nat → Text}
    {rs : List Nat} {runs : Nat} {run : Nat → Text → R Text} {F : Files Text} {files : List Text}
    (hfiles : files = rs.map fun r => inp ++ '/' :: base r) (hrs : rs.Perm (List.range runs))
    (h0 : out ≠ []) (hl : out.getLast? ≠ some '/')
    (hne : ∀ r r', inp ++ '/' :: base r ≠ out ++ '/' :: hashesName p (base r')) (hb : ∀ r, Dat (base r))
    (hinj : ∀ r r', base r = base r' → r = r')
    (hin : ∀ r < runs, F (inp ++ '/' :: base r) = some (text r)) :
    ∃ (T : Fin files.length → Evl.Task Text) (ρ : Fin files.length → Nat),
      (T = fun i : Fin files.length => hashesTask id (run i) p out files[i]) ∧
      (∀ i, ρ i < runs) ∧ (∀ r < runs, ∃ i, ρ i = r) ∧ (∀ i, (T i).output = out ++ '/' :: hashesName p (base (ρ i))) ∧
      (∀ i j a, (T i).input = some a → (T j).output ≠ a) ∧ (∀ i j, (T i).output = (T j).output → i = j) ∧
      ∀ i, (T i).result F = run i (text (ρ i)) := by
  have hlen : files.length = rs.length := by rw [hfiles, List.length_map]
  have hget : ∀ i : Fin files.length, files[i] = inp ++ '/' :: base (rs[i.1]'(hlen ▸ i.2)) := by
    intro i
    simp [hfiles]
  have hlt : ∀ i : Fin files.length, rs[i.1]'(hlen ▸ i.2) < runs := fun i =>
    List.mem_range.1 (hrs.mem_iff.1 (List.getElem_mem _))
  have hnd : rs.Nodup := hrs.nodup_iff.2 List.nodup_range
  have hname : ∀ i : Fin files.length, fileName files[i] = some (base (rs[i.1]'(hlen ▸ i.2))) := fun i => by
    rw [hget i]
    exact (hb _).fileName _
  have hout : ∀ i : Fin files.length, (hashesTask id (run i) p out files[i]).output =
      out ++ '/' :: hashesName p (base (rs[i.1]'(hlen ▸ i.2))) := by
    intro i
    rw [← join_plain h0 hl, hashesTask]
    simp only [id, hname i, Option.getD_some]
  refine ⟨_, fun i => rs[i.1]'(hlen ▸ i.2), rfl, hlt, ?_, hout, ?_, ?_, ?_⟩
  · intro r hr
    obtain ⟨i, hi, rfl⟩ := List.getElem_of_mem (hrs.mem_iff.2 (List.mem_range.2 hr))
    exact ⟨⟨i, by rw [hlen]; exact hi⟩, rfl⟩
  · intro i j a ha
    obtain rfl : files[i] = a := by simpa [hashesTask] using ha
    rw [hout j, hget i]
    exact (hne _ _).symm
  · intro i j e
    rw [hout, hout] at e
    have e1 := hinj _ _ (hashesName_inj (slash_inj (dat_hashes (hb _) _).slash (dat_hashes (hb _) _).slash e).2)
    exact Fin.ext ((hnd.getElem_inj_iff).1 e1)
  · intro i
    rw [result_some (a := files[i]) rfl (by rw [hget i]; exact hin _ (hlt i))]
    simp only [hashesTask, hname i, unwrap_some]
    cases run i (text (rs[i.1]'(hlen ▸ i.2))) <;> rfl

/-- `run` for hashes. -/
theorem stage_hashes {plan : Option (R Plan)} {inp out : Text} {base : Nat → Text} {text want : Nat → Text}
    {rs : List Nat} {runs : Nat} {run : Nat → Text → R Text} {F : Files Text} {files : List Text}
    (hplan : plan = some (.ok (.loop jobs files.length fun i => hashesTask id (run i) p out files[i]))) (hj : 1 ≤ jobs)
    (hfiles : files = rs.map fun r => inp ++ '/' :: base r) (hrs : rs.Perm (List.range runs))
    (h0 : out ≠ []) (hl : out.getLast? ≠ some '/')
    (hne : ∀ r r', inp ++ '/' :: base r ≠ out ++ '/' :: hashesName p (base r')) (hb : ∀ r, Dat (base r))
    (hinj : ∀ r r', base r = base r' → r = r')
    (hin : ∀ r < runs, F (inp ++ '/' :: base r) = some (text r))
    (hrun : ∀ i, ∀ r < runs, run i (text r) = .ok (want r)) :
    Sure plan F ∧ ∀ F', Completes plan F F' →
      (∀ r < runs, F' (out ++ '/' :: hashesName p (base r)) = some (want r)) ∧
      ∀ a, (∀ r < runs, out ++ '/' :: hashesName p (base r) ≠ a) → F' a = F a := by
  obtain ⟨T, ρ, e0, e1, e2, e3, e4, e5, e6⟩ := tasks_hashes (run := run) hfiles hrs h0 hl hne hb hinj hin
  rw [← e0] at hplan
  obtain ⟨k1, k2⟩ := sure_loop (F := F) hplan hj e4 e5 (want := fun i => want (ρ i)) fun i => by
    rw [e6, hrun _ _ (e1 i)]
  refine ⟨k1, fun F' h => ?_⟩
  obtain ⟨k3, k4⟩ := k2 F' h
  refine ⟨fun r hr => ?_, fun a ha => k4 a fun i => ?_⟩
  · obtain ⟨i, rfl⟩ := e2 r hr
    have := k3 i
    rwa [e3] at this
  · rw [e3]
    exact ha _ (e1 i)

/-- A loop with a task that panics does not complete. -/
theorem not_completes {plan : Option (R Plan)} {T : Fin n → Evl.Task Text} {F : Files Text}
    (hplan : plan = some (.ok (.loop jobs n T)))
    (hio : ∀ i j a, (T i).input = some a → (T j).output ≠ a) (hd : ∀ i j, (T i).output = (T j).output → i = j)
    {i : Fin n} {e : Panic} (hres : (T i).result F = .error e) (F' : Files Text) : ¬ Completes plan F F' := by
  subst hplan
  rintro (⟨h, -⟩ | ⟨jobs', n', T', k, c, h, hx, hf, rfl⟩)
  · cases h
  · cases h
    obtain ⟨y, e1, -⟩ := ((C89_tasks hio hd hx).2 i).1 (hf i)
    rw [hres] at e1
    cases e1

/-- `run` for cardinalities. -/
theorem stage_cards {plan : Option (R Plan)} {size file out text : Text} {want : Nat → Text} {runs : Nat}
    {run : Nat → Text → R Text} {F : Files Text}
    (hplan : plan = some (.ok (.loop jobs runs fun r => cardsTask id (run r) p size out file r))) (hj : 1 ≤ jobs)
    (h0 : out ≠ []) (hl : out.getLast? ≠ some '/') (hne : ∀ r < runs, file ≠ out ++ '/' :: cardsName p size r)
    (hin : F file = some text) (hrun : ∀ r < runs, run r text = .ok (want r)) :
    Sure plan F ∧ ∀ F', Completes plan F F' →
      (∀ r < runs, F' (out ++ '/' :: cardsName p size r) = some (want r)) ∧
      ∀ a, (∀ r < runs, out ++ '/' :: cardsName p size r ≠ a) → F' a = F a := by
  have hout : ∀ r : Fin runs, (cardsTask id (run r) p size out file r).output = out ++ '/' :: cardsName p size r :=
    fun r => join_plain h0 hl _
  obtain ⟨k1, k2⟩ := sure_loop (F := F) hplan hj
    (fun i j a ha => by
      obtain rfl : file = a := by simpa [cardsTask] using ha
      rw [hout j]
      exact (hne j j.2).symm)
    (fun i j e => Fin.ext (cardsName_inj (join_inj e)))
    (want := fun r => want r) (fun r => by
      rw [result_some (a := file) rfl hin]
      exact hrun r r.2)
  refine ⟨k1, fun F' h => ?_⟩
  obtain ⟨k3, k4⟩ := k2 F' h
  refine ⟨fun r hr => ?_, fun a ha => k4 a fun i => ?_⟩
  · have := k3 ⟨r, hr⟩
    rwa [hout] at this
  · rw [hout]
    exact ha i i.2

/-- `glob` in a directory in which nothing was written. -/
theorem glob_same {F F' : Files Text} {dir : Text} {L : List Text} (h : Globbed F dir L)
    (hs : ∀ name : Text, '/' ∉ name → F' (dir ++ '/' :: name) = F (dir ++ '/' :: name)) : Globbed F' dir L := by
  refine ⟨h.1, fun a => ?_⟩
  rw [h.2]
  constructor
  · rintro ⟨h1, name, rfl, h2, h3⟩
    exact ⟨by rwa [hs _ h2], name, rfl, h2, h3⟩
  · rintro ⟨h1, name, rfl, h2, h3⟩
    exact ⟨by rwa [hs _ h2] at h1, name, rfl, h2, h3⟩

theorem estName_64 (p r : Nat) :
    hashesName p (generateName "64".toList r) = s!"est-p{p}-hashes-s64-r{r}.dat".toList := by
  rw [String.toList_append, String.toList_append, String.toList_append, String.toList_append]
  unfold hashesName generateName
  rw [display_eq, display_eq]
  simp only [List.append_assoc]
  rfl

theorem cardsName_64 (p r : Nat) : cardsName p "64".toList r = s!"est-p{p}-cards-s64-r{r}.dat".toList := by
  rw [String.toList_append, String.toList_append, String.toList_append, String.toList_append]
  unfold cardsName
  rw [display_eq, display_eq]
  simp only [List.append_assoc]
  rfl

theorem estName_32 (p r : Nat) :
    hashesName p (generateName "32".toList r) = s!"est-p{p}-hashes-s32-r{r}.dat".toList := by
  rw [String.toList_append, String.toList_append, String.toList_append, String.toList_append]
  unfold hashesName generateName
  rw [display_eq, display_eq]
  simp only [List.append_assoc]
  rfl

theorem cardsName_32 (p r : Nat) : cardsName p "32".toList r = s!"est-p{p}-cards-s32-r{r}.dat".toList := by
  rw [String.toList_append, String.toList_append, String.toList_append, String.toList_append]
  unfold cardsName
  rw [display_eq, display_eq]
  simp only [List.append_assoc]
  rfl

/-- The table that the script computes for the runs `rs` with the relative errors `x`. -/
theorem table {mean median std : List F64 → F64} {rs : List Nat} (hrs : rs ≠ []) {E : Nat → Nat → Nat}
    (hE : ∀ r t, E r t < 2 ^ 64) {ts : List Nat} (ht : ∀ t ∈ ts, 0 < t ∧ t ≤ 2 ^ 52) :
    ∃ x : Nat → Nat → ℚ, calculateStatistics mean median std
        (rs.map fun r => (String.join (ts.map fun t => s!"{t} {E r t}\n")).toList) =
      .ok (ts.map fun t : Nat => (t : ℤ), ts.map fun t => mean (rs.map fun r => fin (x r t)),
        ts.map fun t => median (rs.map fun r => fin (x r t)),
        ts.map fun t => std (rs.map fun r => fin (x r t))) ∧
      ∀ r ∈ rs, ∀ t ∈ ts, |x r t - |(E r t : ℚ) - t| / t| ≤ |(E r t : ℚ) - t| / t / 2 ^ 50 := by
  obtain ⟨x, hx, hs⟩ := C81_statistics mean median std (F := rs.map E) (by simpa using hrs) ht (by
    intro e he t _
    obtain ⟨a, _, rfl⟩ := List.mem_map.1 he
    exact hE a t)
  refine ⟨fun r t => x (E r t) t, ?_, fun r hr t ht => hx (E r) (List.mem_map_of_mem hr) t ht⟩
  rw [List.map_map] at hs
  simp only [List.map_map, Function.comp_def] at hs ⊢
  exact hs

/-- Both commands of the first experiment, and the table. -/
theorem hashes_experiment (mean median std : List F64 → F64) {plan : Option (R Plan)}
    {plan' : List Text → Option (R Plan)} {size inp out : Text} (hs : '/' ∉ size)
    {jobs' count runs : Nat} {values : Nat → List Nat} {run : Nat → Text → R Text} {E : Nat → Nat → Nat}
    {F₀ : Files Text}
    (hplan : plan = some (.ok (.loop jobs runs fun r => genTask id size inp (values r) r))) (hj : 1 ≤ jobs)
    (hplan' : ∀ L, L ≠ [] → (∀ f ∈ L, isValue f = true) →
      plan' L = some (.ok (.loop jobs' L.length fun i => hashesTask id (run i) p out L[i]))) (hj' : 1 ≤ jobs')
    (hi0 : inp ≠ []) (hiv : inp.head? ≠ some '-') (hil : inp.getLast? ≠ some '/') (ho0 : out ≠ [])
    (hol : out.getLast? ≠ some '/') (hne : inp ≠ out) (hr : 1 ≤ runs) (hc : count ≤ 2 ^ 52)
    (hE : ∀ r t, E r t < 2 ^ 64)
    (hrun : ∀ i, ∀ r < runs, run i (generate (values r)) =
      .ok (String.join ((List.range count).map fun k => s!"{k + 1} {E r (k + 1)}\n")).toList)
    (hgi : Globbed F₀ inp []) (hgo : Globbed F₀ out []) :
    Sure plan F₀ ∧ ∀ F₁ L, Completes plan F₀ F₁ → Globbed F₁ inp L →
      Sure (plan' L) F₁ ∧ ∀ F₂ L', Completes (plan' L) F₁ F₂ → Globbed F₂ out L' →
        ∃ (rs : List Nat) (x : Nat → Nat → ℚ), rs.Perm (List.range runs) ∧
          L' = rs.map (fun r => out ++ '/' :: hashesName p (generateName size r)) ∧
          calculateStatistics mean median std (L'.map fun f => (F₂ f).getD []) =
            .ok (((List.range count).map (· + 1)).map fun t : Nat => (t : ℤ),
              ((List.range count).map (· + 1)).map fun t => mean (rs.map fun r => fin (x r t)),
              ((List.range count).map (· + 1)).map fun t => median (rs.map fun r => fin (x r t)),
              ((List.range count).map (· + 1)).map fun t => std (rs.map fun r => fin (x r t))) ∧
          ∀ r < runs, ∀ t, 1 ≤ t → t ≤ count →
            |x r t - |(E r t : ℚ) - t| / t| ≤ |(E r t : ℚ) - t| / t / 2 ^ 50 := by
  obtain ⟨k1, k2⟩ := stage_gen (F := F₀) hplan hj hi0 hil
  refine ⟨k1, fun F₁ L hF₁ hL => ?_⟩
  obtain ⟨k3, k4⟩ := k2 F₁ hF₁
  have hdat : ∀ r, Dat (generateName size r) := dat_generate hs
  have hinj : ∀ r r', generateName size r = generateName size r' → r = r' := fun r r' => C78_names
  obtain ⟨rs, hrs, hLrs⟩ := glob_new hgi (fun r hr => by rw [k3 r hr]; simp) k4 hdat hinj hL
  have hpos : ∀ l : List Nat, l.Perm (List.range runs) → l ≠ [] := by
    rintro l hl rfl
    have := hl.length_eq
    simp at this
    omega
  have hL0 : L ≠ [] := by
    rw [hLrs]
    simpa using hpos rs hrs
  have hLv : ∀ f ∈ L, isValue f = true := by
    intro f hf
    rw [hLrs] at hf
    obtain ⟨r, -, rfl⟩ := List.mem_map.1 hf
    cases inp with
    | nil => exact absurd rfl hi0
    | cons c cs =>
      have : c ≠ '-' := by simpa using hiv
      simp [isValue, this]
  obtain ⟨k5, k6⟩ := stage_hashes (F := F₁) (hplan' L hL0 hLv) hj' hLrs hrs ho0 hol
    (fun r r' e => hne (slash_inj (hdat r).slash (dat_hashes (hdat r') p).slash e).1) hdat hinj k3 hrun
  refine ⟨k5, fun F₂ L' hF₂ hL' => ?_⟩
  obtain ⟨k7, k8⟩ := k6 F₂ hF₂
  have hgo' : Globbed F₁ out [] := glob_same hgo fun name hname => k4 _ fun r _ e =>
    hne (slash_inj (hdat r).slash hname e).1
  obtain ⟨rs', hrs', hLrs'⟩ := glob_new hgo' (fun r hr => by rw [k7 r hr]; simp) k8
    (fun r => dat_hashes (hdat r) p) (fun r r' e => hinj _ _ (hashesName_inj e)) hL'
  have hmem : ∀ t, t ∈ (List.range count).map (· + 1) ↔ 1 ≤ t ∧ t ≤ count := by
    intro t
    simp only [List.mem_map, List.mem_range]
    exact ⟨fun ⟨a, h, e⟩ => by omega, fun h => ⟨t - 1, by omega, by omega⟩⟩
  obtain ⟨x, hx1, hx2⟩ := table (mean := mean) (median := median) (std := std) (hpos rs' hrs') hE
    (ts := (List.range count).map (· + 1)) (fun t ht => by rw [hmem] at ht; omega)
  refine ⟨rs', x, hrs', hLrs', ?_, fun r hr t h1 h2 => hx2 r (hrs'.mem_iff.2 (List.mem_range.2 hr)) t ((hmem t).2 ⟨h1, h2⟩)⟩
  rw [← hx1, hLrs', List.map_map]
  congr 1
  refine List.map_congr_left fun r hr => ?_
  rw [Function.comp, k7 r (List.mem_range.1 (hrs'.mem_iff.1 hr)), Option.getD_some]
  exact congrArg (fun l => (String.join l).toList) (lines_succ count fun t => s!"{t} {E r t}\n")

/-- The command of the second experiment, and the table. -/
theorem cards_experiment (mean median std : List F64 → F64) {plan : Option (R Plan)} {size dir out : Text}
    (hs : '/' ∉ size) {runs : Nat} {run : Nat → Text → R Text} {E : Nat → Nat → Nat} {F₀ : Files Text} {ts : List Nat}
    (hplan : plan = some (.ok (.loop jobs runs fun r => cardsTask id (run r) p size out (cardinalitiesPath dir) r)))
    (hj : 1 ≤ jobs) (hd0 : dir ≠ []) (hdl : dir.getLast? ≠ some '/') (ho0 : out ≠ [])
    (hol : out.getLast? ≠ some '/') (hne : dir ≠ out) (hr : 1 ≤ runs) (ht : ∀ t ∈ ts, 0 < t ∧ t ≤ 2 ^ 52)
    (hE : ∀ r t, E r t < 2 ^ 64)
    (hrun : ∀ r < runs, run r (cardinalitiesFile (ts.map fun t : Nat => (t : ℤ))) =
      .ok (String.join (ts.map fun t => s!"{t} {E r t}\n")).toList)
    (hgo : Globbed F₀ out []) {F₁ : Files Text}
    (hF₁ : F₁ = Function.update F₀ (cardinalitiesPath dir) (some (cardinalitiesFile (ts.map fun t : Nat => (t : ℤ))))) :
    Sure plan F₁ ∧ ∀ F₂ L', Completes plan F₁ F₂ → Globbed F₂ out L' →
      ∃ (rs : List Nat) (x : Nat → Nat → ℚ), rs.Perm (List.range runs) ∧
        L' = rs.map (fun r => out ++ '/' :: cardsName p size r) ∧
        calculateStatistics mean median std (L'.map fun f => (F₂ f).getD []) =
          .ok (ts.map fun t : Nat => (t : ℤ), ts.map fun t => mean (rs.map fun r => fin (x r t)),
            ts.map fun t => median (rs.map fun r => fin (x r t)),
            ts.map fun t => std (rs.map fun r => fin (x r t))) ∧
        ∀ r < runs, ∀ t ∈ ts, |x r t - |(E r t : ℚ) - t| / t| ≤ |(E r t : ℚ) - t| / t / 2 ^ 50 := by
  have hpath : cardinalitiesPath dir = dir ++ '/' :: "cardinalities.dat".toList := join_plain hd0 hdl _
  have hdat : ∀ r, Dat (cardsName p size r) := dat_cards hs p
  have hsl : '/' ∉ "cardinalities.dat".toList := by decide
  obtain ⟨k5, k6⟩ := stage_cards (F := F₁) (want := fun r => (String.join (ts.map fun t => s!"{t} {E r t}\n")).toList)
    hplan hj ho0 hol (fun r _ e => by
      rw [hpath] at e
      exact hne (slash_inj hsl (hdat r).slash e).1) (by rw [hF₁]; exact Function.update_self _ _ _) hrun
  refine ⟨k5, fun F₂ L' hF₂ hL' => ?_⟩
  obtain ⟨k7, k8⟩ := k6 F₂ hF₂
  have hgo' : Globbed F₁ out [] := glob_same hgo fun name hname => by
    rw [hF₁, Function.update_of_ne]
    intro e
    rw [hpath] at e
    exact hne (slash_inj hname hsl e).1.symm
  obtain ⟨rs', hrs', hLrs'⟩ := glob_new hgo' (fun r hr => by rw [k7 r hr]; simp) k8 hdat
    (fun r r' e => cardsName_inj e) hL'
  have hpos : rs' ≠ [] := by
    rintro rfl
    have := hrs'.length_eq
    simp at this
    omega
  obtain ⟨x, hx1, hx2⟩ := table (mean := mean) (median := median) (std := std) hpos hE ht
  refine ⟨rs', x, hrs', hLrs', ?_, fun r hr t h => hx2 r (hrs'.mem_iff.2 (List.mem_range.2 hr)) t h⟩
  rw [← hx1, hLrs', List.map_map]
  congr 1
  refine List.map_congr_left fun r hr => ?_
  rw [Function.comp, k7 r (List.mem_range.1 (hrs'.mem_iff.1 hr)), Option.getD_some]

theorem isValue_plain {d : Text} (h : d.head? ≠ some '-') : isValue d = true := by simp [isValue, h]

theorem threads_pos {j cpus : Nat} (h : 1 ≤ cpus) : 1 ≤ if j = 0 then cpus else j := by
  split <;> omega

theorem image_take {w : Nat} (draw : Nat → BitVec w) {count t : Nat} (h : t ≤ count) :
    ((((List.range count).map draw).take t).map BitVec.toNat).toFinset =
      (Finset.range t).image fun i => (draw i).toNat := by
  rw [← List.map_take, List.take_range, min_eq_left h, List.map_map]
  ext v
  simp

end Evl

section
variable (mean median std : List F64 → F64)

/-- **C90**, the first experiment with `HyperLogLogPlus` from beginning to end: `exp.py prepare --type hashes --size 64`
into the directory `inp`, `exp.py run --type hllp --mode hashes` from `inp` to `out`, and the table that `exp.py plot`
computes from `out`.  Both commands are sure to succeed, for any numbers of threads, any random values, any order in
which `glob` lists the files and any interleaving of the threads; the table has a row for each `t` from 1 to `count`,
computed from the relative errors of the (truncated) estimates after `t` of the values drawn in each run. -/
theorem C90_plus_hashes (hcfg : cfg.usizeBits = 64) (c32 : Serde.Codec U32) (c64 : Serde.Codec U64) (env env' : Env)
    (he : 1 ≤ env.cpus) (he' : 1 ≤ env'.cpus) {j j' count runs : Nat} (hj : j < 2 ^ 64) (hj' : j' < 2 ^ 64)
    (hc : count ≤ 2 ^ 52) (hr : 1 ≤ runs) (hr' : runs < 2 ^ 64) (h1 : 4 ≤ p) (h2 : p ≤ 18) {inp out : Text}
    (hi0 : inp ≠ []) (hiv : inp.head? ≠ some '-') (hil : inp.getLast? ≠ some '/') (ho0 : out ≠ [])
    (hov : out.head? ≠ some '-') (hol : out.getLast? ≠ some '/') (hne : inp ≠ out) {F₀ : Files Text}
    (hgi : Globbed F₀ inp []) (hgo : Globbed F₀ out []) :
    let prepare := main cfg ln c32 c64 env (prepareCommand (j : ℤ) "64".toList (count : ℤ) (runs : ℤ) inp)
    let evl := fun L => main cfg ln c32 c64 env' (runHashesCommand (j' : ℤ) "hllp".toList (p : ℤ) out L)
    Sure prepare F₀ ∧ ∀ F₁ L, Completes prepare F₀ F₁ → Globbed F₁ inp L →
      Sure (evl L) F₁ ∧ ∀ F₂ L', Completes (evl L) F₁ F₂ → Globbed F₂ out L' →
        ∃ (rs : List Nat) (x : Nat → Nat → ℚ), rs.Perm (List.range runs) ∧
          L' = rs.map (fun r => out ++ '/' :: s!"est-p{p}-hashes-s64-r{r}.dat".toList) ∧
          calculateStatistics mean median std (L'.map fun f => (F₂ f).getD []) =
            .ok (((List.range count).map (· + 1)).map fun t : Nat => (t : ℤ),
              ((List.range count).map (· + 1)).map fun t => mean (rs.map fun r => fin (x r t)),
              ((List.range count).map (· + 1)).map fun t => median (rs.map fun r => fin (x r t)),
              ((List.range count).map (· + 1)).map fun t => std (rs.map fun r => fin (x r t))) ∧
          ∀ r < runs, ∀ t, 1 ≤ t → t ≤ count → ∀ e : Nat,
            e = truncU64 (plusCount ln (Plus.biasOf cfg.search) p ((Finset.range t).image fun i =>
              (env.draw64 r i).toNat)) →
            |x r t - |(e : ℚ) - t| / t| ≤ |(e : ℚ) - t| / t / 2 ^ 50 := by
  intro prepare evl
  have hc' : count < 2 ^ 64 := lt_of_le_of_lt hc (by norm_num)
  have hp : p < 256 := by omega
  have hg : prepare = _ := (main_gen hcfg hj hc' hr' (isValue_plain hiv)).2
  have hh : ∀ L, L ≠ [] → (∀ f ∈ L, isValue f = true) → evl L = _ := fun L h0 hL =>
    (main_hashes hcfg hj' hp (isValue_plain hov) h0 hL).2
  clear_value prepare evl
  obtain ⟨k1, k2⟩ := hashes_experiment mean median std (size := "64".toList) (p := p) (count := count)
    (run := fun i => runPlus cfg ln c64 (env'.ords i) (toString p).toList)
    (by decide) hg (threads_pos he) hh (threads_pos he') hi0 hiv hil ho0 hol
    hne hr hc (E := fun r t => truncU64 (plusCount ln (Plus.biasOf cfg.search) p ((Finset.range t).image fun i =>
      (env.draw64 r i).toNat))) (fun _ _ => truncU64_lt _) (fun i r _ => by
        have := C78_plus_hashes (ln := ln) (ords := env'.ords i) hcfg c64 h1 h2 ((List.range count).map (env.draw64 r))
          (by simpa using hc')
        rw [List.map_map, List.length_map, List.length_range] at this
        refine this.trans (congrArg (fun l => Except.ok (String.join l).toList) (List.map_congr_left fun k hk => ?_))
        rw [image_take _ (List.mem_range.1 hk)]) hgi hgo
  refine ⟨k1, fun F₁ L hF₁ hL => ?_⟩
  obtain ⟨k3, k4⟩ := k2 F₁ L hF₁ hL
  refine ⟨k3, fun F₂ L' hF₂ hL' => ?_⟩
  obtain ⟨rs, x, e1, e2, e3, e4⟩ := k4 F₂ L' hF₂ hL'
  refine ⟨rs, x, e1, ?_, e3, ?_⟩
  · rw [e2]
    exact List.map_congr_left fun r _ => congrArg (fun b => out ++ '/' :: b) (estName_64 p r)
  · rintro r hr t ht1 ht2 e rfl
    exact e4 r hr t ht1 ht2

/-- **C90**: the same with `HyperLogLogPF` and hashes of 32 bits. -/
theorem C90_pf_hashes (hcfg : cfg.usizeBits = 64) (c32 : Serde.Codec U32) (c64 : Serde.Codec U64) (env env' : Env)
    (he : 1 ≤ env.cpus) (he' : 1 ≤ env'.cpus) {j j' count runs : Nat} (hj : j < 2 ^ 64) (hj' : j' < 2 ^ 64)
    (hc : count ≤ 2 ^ 52) (hr : 1 ≤ runs) (hr' : runs < 2 ^ 64) (h1 : 4 ≤ p) (h2 : p ≤ 16) {inp out : Text}
    (hi0 : inp ≠ []) (hiv : inp.head? ≠ some '-') (hil : inp.getLast? ≠ some '/') (ho0 : out ≠ [])
    (hov : out.head? ≠ some '-') (hol : out.getLast? ≠ some '/') (hne : inp ≠ out) {F₀ : Files Text}
    (hgi : Globbed F₀ inp []) (hgo : Globbed F₀ out []) :
    let prepare := main cfg ln c32 c64 env (prepareCommand (j : ℤ) "32".toList (count : ℤ) (runs : ℤ) inp)
    let evl := fun L => main cfg ln c32 c64 env' (runHashesCommand (j' : ℤ) "hll".toList (p : ℤ) out L)
    Sure prepare F₀ ∧ ∀ F₁ L, Completes prepare F₀ F₁ → Globbed F₁ inp L →
      Sure (evl L) F₁ ∧ ∀ F₂ L', Completes (evl L) F₁ F₂ → Globbed F₂ out L' →
        ∃ (rs : List Nat) (x : Nat → Nat → ℚ), rs.Perm (List.range runs) ∧
          L' = rs.map (fun r => out ++ '/' :: s!"est-p{p}-hashes-s32-r{r}.dat".toList) ∧
          calculateStatistics mean median std (L'.map fun f => (F₂ f).getD []) =
            .ok (((List.range count).map (· + 1)).map fun t : Nat => (t : ℤ),
              ((List.range count).map (· + 1)).map fun t => mean (rs.map fun r => fin (x r t)),
              ((List.range count).map (· + 1)).map fun t => median (rs.map fun r => fin (x r t)),
              ((List.range count).map (· + 1)).map fun t => std (rs.map fun r => fin (x r t))) ∧
          ∀ r < runs, ∀ t, 1 ≤ t → t ≤ count → ∀ e : Nat,
            e = truncU64 (pfCount ln p ((Finset.range t).image fun i => (env.draw32 r i).toNat)) →
            |x r t - |(e : ℚ) - t| / t| ≤ |(e : ℚ) - t| / t / 2 ^ 50 := by
  intro prepare evl
  have hc' : count < 2 ^ 64 := lt_of_le_of_lt hc (by norm_num)
  have hp : p < 256 := by omega
  have hg : prepare = _ := (main_gen hcfg hj hc' hr' (isValue_plain hiv)).1
  have hh : ∀ L, L ≠ [] → (∀ f ∈ L, isValue f = true) → evl L = _ := fun L h0 hL =>
    (main_hashes hcfg hj' hp (isValue_plain hov) h0 hL).1
  clear_value prepare evl
  obtain ⟨k1, k2⟩ := hashes_experiment mean median std (size := "32".toList) (p := p) (count := count)
    (run := fun i => Evl.run cfg ln c32 (env'.ords i) (toString p).toList)
    (by decide) hg (threads_pos he) hh (threads_pos he') hi0 hiv hil ho0 hol
    hne hr hc (E := fun r t => truncU64 (pfCount ln p ((Finset.range t).image fun i =>
      (env.draw32 r i).toNat))) (fun _ _ => truncU64_lt _) (fun i r _ => by
        have := C78_pf_hashes (ln := ln) (ords := env'.ords i) hcfg c32 h1 h2 ((List.range count).map (env.draw32 r))
          (by simpa using hc')
        rw [List.map_map, List.length_map, List.length_range] at this
        refine this.trans (congrArg (fun l => Except.ok (String.join l).toList) (List.map_congr_left fun k hk => ?_))
        rw [image_take _ (List.mem_range.1 hk)]) hgi hgo
  refine ⟨k1, fun F₁ L hF₁ hL => ?_⟩
  obtain ⟨k3, k4⟩ := k2 F₁ L hF₁ hL
  refine ⟨k3, fun F₂ L' hF₂ hL' => ?_⟩
  obtain ⟨rs, x, e1, e2, e3, e4⟩ := k4 F₂ L' hF₂ hL'
  refine ⟨rs, x, e1, ?_, e3, ?_⟩
  · rw [e2]
    exact List.map_congr_left fun r _ => congrArg (fun b => out ++ '/' :: b) (estName_32 p r)
  · rintro r hr t ht1 ht2 e rfl
    exact e4 r hr t ht1 ht2

/-- **C90**, the second experiment with `HyperLogLogPlus` from beginning to end: `exp.py prepare --type cardinalities`
into the directory `dir`, `exp.py run --type hllp --mode cardinalities` with the file that it wrote, and the table. -/
theorem C90_plus_cardinalities (hcfg : cfg.usizeBits = 64) (c32 : Serde.Codec U32) (c64 : Serde.Codec U64) (env : Env)
    (he : 1 ≤ env.cpus) {j runs : Nat} (hj : j < 2 ^ 64) (hr : 1 ≤ runs) (hr' : runs < 2 ^ 64) (h1 : 4 ≤ p)
    (h2 : p ≤ 18) {M : ℤ} (hM : M ≤ 2 ^ 51) {dir out : Text} (hd0 : dir ≠ []) (hdv : dir.head? ≠ some '-')
    (hdl : dir.getLast? ≠ some '/') (ho0 : out ≠ []) (hov : out.head? ≠ some '-') (hol : out.getLast? ≠ some '/')
    (hne : dir ≠ out) {F₀ : Files Text} (hgo : Globbed F₀ out []) :
    ∃ (ts : List Nat) (fuel : Nat), generateCardinalities fuel M = some (.ok (ts.map fun t : Nat => (t : ℤ))) ∧
    let F₁ := prepareCardinalities dir (ts.map fun t : Nat => (t : ℤ)) F₀
    let evl := main cfg ln c32 c64 env
      (runCardinalitiesCommand (j : ℤ) "hllp".toList (p : ℤ) out (runs : ℤ) (dir ++ '/' :: "cardinalities.dat".toList))
    Sure evl F₁ ∧ ∀ F₂ L', Completes evl F₁ F₂ → Globbed F₂ out L' →
      ∃ (rs : List Nat) (x : Nat → Nat → ℚ), rs.Perm (List.range runs) ∧
        L' = rs.map (fun r => out ++ '/' :: s!"est-p{p}-cards-s64-r{r}.dat".toList) ∧
        calculateStatistics mean median std (L'.map fun f => (F₂ f).getD []) =
          .ok (ts.map fun t : Nat => (t : ℤ), ts.map fun t => mean (rs.map fun r => fin (x r t)),
            ts.map fun t => median (rs.map fun r => fin (x r t)),
            ts.map fun t => std (rs.map fun r => fin (x r t))) ∧
        ∀ r < runs, ∀ t ∈ ts, ∀ e : Nat,
          e = truncU64 (plusCount ln (Plus.biasOf cfg.search) p ((Finset.range t).image fun i =>
            (env.draw64 r i).toNat)) →
          |x r t - |(e : ℚ) - t| / t| ≤ |(e : ℚ) - t| / t / 2 ^ 50 := by
  obtain ⟨ts, fuel, k1, k2, k3⟩ := cardinalities_nat hM
  refine ⟨ts, fuel, k1, ?_⟩
  rw [show dir ++ '/' :: "cardinalities.dat".toList = cardinalitiesPath dir from (join_plain hd0 hdl _).symm]
  intro F₁ evl
  have hpv : isValue (cardinalitiesPath dir) = true := by
    rw [cardinalitiesPath, join_plain hd0 hdl]
    cases dir with
    | nil => exact absurd rfl hd0
    | cons c cs =>
      have : c ≠ '-' := by simpa using hdv
      simp [isValue, this]
  have hp : p < 256 := by omega
  have hh : evl = _ := (main_cards hcfg hj hp hr' (isValue_plain hov) hpv).2
  have hF₁ : F₁ = Function.update F₀ (cardinalitiesPath dir)
    (some (cardinalitiesFile (ts.map fun t : Nat => (t : ℤ)))) := rfl
  clear_value F₁ evl
  obtain ⟨k4, k5⟩ := cards_experiment mean median std (size := "64".toList) (p := p)
    (run := fun r => runPlusAt cfg ln c64 (env.ords r) (env.draw64 r) (toString p).toList) (by decide) hh (threads_pos he) hd0 hdl ho0 hol hne hr k3
    (E := fun r t => truncU64 (plusCount ln (Plus.biasOf cfg.search) p ((Finset.range t).image fun i =>
      (env.draw64 r i).toNat))) (fun _ _ => truncU64_lt _) (fun r _ => by
      rw [file_eq, C78_plus_cardinalities hcfg c64 h1 h2 (env.draw64 r) ts fun t ht =>
        lt_of_le_of_lt (k3 t ht).2 (by norm_num)]
      exact congrArg (fun l => Except.ok (String.join l).toList)
        (lines_sorted ts (k2.imp le_of_lt) (f := fun t => s!"{t} {truncU64 (plusCount ln
          (Plus.biasOf cfg.search) p ((Finset.range t).image fun i => (env.draw64 r i).toNat))}\n"))) hgo hF₁
  refine ⟨k4, fun F₂ L' hF₂ hL' => ?_⟩
  obtain ⟨rs, x, e1, e2, e3, e4⟩ := k5 F₂ L' hF₂ hL'
  refine ⟨rs, x, e1, ?_, e3, ?_⟩
  · rw [e2]
    exact List.map_congr_left fun r _ => congrArg (fun b => out ++ '/' :: b) (cardsName_64 p r)
  · rintro r hr t ht e rfl
    exact e4 r hr t ht

/-- **C90**: the same with `HyperLogLogPF`. -/
theorem C90_pf_cardinalities (hcfg : cfg.usizeBits = 64) (c32 : Serde.Codec U32) (c64 : Serde.Codec U64) (env : Env)
    (he : 1 ≤ env.cpus) {j runs : Nat} (hj : j < 2 ^ 64) (hr : 1 ≤ runs) (hr' : runs < 2 ^ 64) (h1 : 4 ≤ p)
    (h2 : p ≤ 16) {M : ℤ} (hM : M ≤ 2 ^ 51) {dir out : Text} (hd0 : dir ≠ []) (hdv : dir.head? ≠ some '-')
    (hdl : dir.getLast? ≠ some '/') (ho0 : out ≠ []) (hov : out.head? ≠ some '-') (hol : out.getLast? ≠ some '/')
    (hne : dir ≠ out) {F₀ : Files Text} (hgo : Globbed F₀ out []) :
    ∃ (ts : List Nat) (fuel : Nat), generateCardinalities fuel M = some (.ok (ts.map fun t : Nat => (t : ℤ))) ∧
    let F₁ := prepareCardinalities dir (ts.map fun t : Nat => (t : ℤ)) F₀
    let evl := main cfg ln c32 c64 env
      (runCardinalitiesCommand (j : ℤ) "hll".toList (p : ℤ) out (runs : ℤ) (dir ++ '/' :: "cardinalities.dat".toList))
    Sure evl F₁ ∧ ∀ F₂ L', Completes evl F₁ F₂ → Globbed F₂ out L' →
      ∃ (rs : List Nat) (x : Nat → Nat → ℚ), rs.Perm (List.range runs) ∧
        L' = rs.map (fun r => out ++ '/' :: s!"est-p{p}-cards-s32-r{r}.dat".toList) ∧
        calculateStatistics mean median std (L'.map fun f => (F₂ f).getD []) =
          .ok (ts.map fun t : Nat => (t : ℤ), ts.map fun t => mean (rs.map fun r => fin (x r t)),
            ts.map fun t => median (rs.map fun r => fin (x r t)),
            ts.map fun t => std (rs.map fun r => fin (x r t))) ∧
        ∀ r < runs, ∀ t ∈ ts, ∀ e : Nat,
          e = truncU64 (pfCount ln p ((Finset.range t).image fun i => (env.draw32 r i).toNat)) →
          |x r t - |(e : ℚ) - t| / t| ≤ |(e : ℚ) - t| / t / 2 ^ 50 := by
  obtain ⟨ts, fuel, k1, k2, k3⟩ := cardinalities_nat hM
  refine ⟨ts, fuel, k1, ?_⟩
  rw [show dir ++ '/' :: "cardinalities.dat".toList = cardinalitiesPath dir from (join_plain hd0 hdl _).symm]
  intro F₁ evl
  have hpv : isValue (cardinalitiesPath dir) = true := by
    rw [cardinalitiesPath, join_plain hd0 hdl]
    cases dir with
    | nil => exact absurd rfl hd0
    | cons c cs =>
      have : c ≠ '-' := by simpa using hdv
      simp [isValue, this]
  have hp : p < 256 := by omega
  have hh : evl = _ := (main_cards hcfg hj hp hr' (isValue_plain hov) hpv).1
  have hF₁ : F₁ = Function.update F₀ (cardinalitiesPath dir)
    (some (cardinalitiesFile (ts.map fun t : Nat => (t : ℤ)))) := rfl
  clear_value F₁ evl
  obtain ⟨k4, k5⟩ := cards_experiment mean median std (size := "32".toList) (p := p)
    (run := fun r => runAt cfg ln c32 (env.ords r) (env.draw32 r) (toString p).toList) (by decide) hh (threads_pos he) hd0 hdl ho0 hol hne hr k3
    (E := fun r t => truncU64 (pfCount ln p ((Finset.range t).image fun i =>
      (env.draw32 r i).toNat))) (fun _ _ => truncU64_lt _) (fun r _ => by
      rw [file_eq, C78_pf_cardinalities hcfg c32 h1 h2 (env.draw32 r) ts fun t ht =>
        lt_of_le_of_lt (k3 t ht).2 (by norm_num)]
      exact congrArg (fun l => Except.ok (String.join l).toList)
        (lines_sorted ts (k2.imp le_of_lt) (f := fun t => s!"{t} {truncU64 (pfCount ln p
          ((Finset.range t).image fun i => (env.draw32 r i).toNat))}\n"))) hgo hF₁
  refine ⟨k4, fun F₂ L' hF₂ hL' => ?_⟩
  obtain ⟨rs, x, e1, e2, e3, e4⟩ := k5 F₂ L' hF₂ hL'
  refine ⟨rs, x, e1, ?_, e3, ?_⟩
  · rw [e2]
    exact List.map_congr_left fun r _ => congrArg (fun b => out ++ '/' :: b) (cardsName_32 p r)
  · rintro r hr t ht e rfl
    exact e4 r hr t ht

end

/-! ## What goes wrong -/

namespace Evl

/-- What is known after `prepare` for hashes and `glob`. -/
theorem prepared {plan : Option (R Plan)} {size inp : Text} (hs : '/' ∉ size) {runs : Nat} {values : Nat → List Nat}
    {F₀ F₁ : Files Text} {L : List Text}
    (hplan : plan = some (.ok (.loop jobs runs fun r => genTask id size inp (values r) r))) (hj : 1 ≤ jobs)
    (hi0 : inp ≠ []) (hiv : inp.head? ≠ some '-') (hil : inp.getLast? ≠ some '/') (hr : 1 ≤ runs)
    (hgi : Globbed F₀ inp []) (hF₁ : Completes plan F₀ F₁) (hL : Globbed F₁ inp L) :
    (∀ r < runs, F₁ (inp ++ '/' :: generateName size r) = some (generate (values r))) ∧
    (∀ a, (∀ r < runs, inp ++ '/' :: generateName size r ≠ a) → F₁ a = F₀ a) ∧
    L ≠ [] ∧ (∀ f ∈ L, isValue f = true) ∧
    ∃ rs : List Nat, rs.Perm (List.range runs) ∧ L = rs.map fun r => inp ++ '/' :: generateName size r := by
  obtain ⟨k3, k4⟩ := (stage_gen (F := F₀) hplan hj hi0 hil).2 F₁ hF₁
  obtain ⟨rs, hrs, hLrs⟩ := glob_new hgi (fun r hr => by rw [k3 r hr]; simp) k4 (dat_generate hs)
    (fun r r' => C78_names) hL
  refine ⟨k3, k4, ?_, ?_, rs, hrs, hLrs⟩
  · rintro rfl
    have h1 := hrs.length_eq
    have h2 := congrArg List.length hLrs
    simp at h1 h2
    omega
  · intro f hf
    rw [hLrs] at hf
    obtain ⟨r, -, rfl⟩ := List.mem_map.1 hf
    cases inp with
    | nil => exact absurd rfl hi0
    | cons c cs =>
      have : c ≠ '-' := by simpa using hiv
      simp [isValue, this]

theorem estName_p {p q r r' : Nat} {size : Text}
    (h : hashesName q (generateName size r) = hashesName p (generateName size r')) : q = p := by
  unfold hashesName at h
  rw [List.append_assoc, List.append_assoc, List.append_assoc, List.append_assoc] at h
  exact display_inj (split_first (display_no (by decide)) (display_no (by decide)) (List.append_cancel_left h)).1

theorem str_neg {z : ℤ} (h : z < 0) : ∃ n, Exp.str z = '-' :: display n := by
  obtain ⟨n, rfl⟩ : ∃ n : Nat, z = Int.negSucc n := ⟨(-z - 1).toNat, by omega⟩
  exact ⟨n + 1, by rw [Exp.str, display_eq]; exact String.toList_append ..⟩

/-- A negative number is neither a value nor an option. -/
theorem neg_rejected {z : ℤ} (h : z < 0) (opts : List Opt) (cur : Option (Opt × List Text)) (m : Matches)
    (ts : List Text) : parseArgs opts cur m (Exp.str z :: ts) = none := by
  obtain ⟨n, hn⟩ := str_neg h
  have hd := display_ne_nil n
  have h1 : isValue ('-' :: display n) = false := by simp [isValue, hd]
  have h2 : opts.find? (fun o => ("--" ++ o.name).toList = '-' :: display n) = none := by
    rw [List.find?_eq_none]
    intro o _ e
    rw [decide_eq_true_eq, String.toList_append] at e
    have e2 : '-' :: o.name.toList = display n := by
      have e3 : '-' :: ('-' :: o.name.toList) = '-' :: display n := e
      simpa using e3
    exact display_no (c := '-') (by decide) (e2 ▸ List.mem_cons_self)
  rw [hn]
  cases cur <;> rw [parseArgs, h1, if_neg (by simp), h2]

end Evl

/-- **C90**, older results: a file `*.dat` in the output directory that this run does not write again, for example the
estimates with another precision, stays as it was and is among the files of which `plot` computes the statistics. -/
theorem C90_older (hcfg : cfg.usizeBits = 64) (c32 : Serde.Codec U32) (c64 : Serde.Codec U64) (env env' : Env)
    (he : 1 ≤ env.cpus) (he' : 1 ≤ env'.cpus) {j j' count runs : Nat} (hj : j < 2 ^ 64) (hj' : j' < 2 ^ 64)
    (hc : count < 2 ^ 64) (hr : 1 ≤ runs) (hr' : runs < 2 ^ 64) (h1 : 4 ≤ p) (h2 : p ≤ 18) {inp out : Text}
    (hi0 : inp ≠ []) (hiv : inp.head? ≠ some '-') (hil : inp.getLast? ≠ some '/') (ho0 : out ≠ [])
    (hov : out.head? ≠ some '-') (hol : out.getLast? ≠ some '/') (hne : inp ≠ out) {F₀ F₁ F₂ : Files Text}
    {L L₀ L' : List Text} (hgi : Globbed F₀ inp []) (hgo : Globbed F₀ out L₀)
    (hF₁ : Completes (main cfg ln c32 c64 env (prepareCommand (j : ℤ) "64".toList (count : ℤ) (runs : ℤ) inp)) F₀ F₁)
    (hL : Globbed F₁ inp L)
    (hF₂ : Completes (main cfg ln c32 c64 env' (runHashesCommand (j' : ℤ) "hllp".toList (p : ℤ) out L)) F₁ F₂)
    (hL' : Globbed F₂ out L') :
    (∀ f ∈ L₀, (∀ r < runs, f ≠ out ++ '/' :: s!"est-p{p}-hashes-s64-r{r}.dat".toList) → f ∈ L' ∧ F₂ f = F₀ f) ∧
    ∀ q r : Nat, q ≠ p → ∀ y, F₀ (out ++ '/' :: s!"est-p{q}-hashes-s64-r{r}.dat".toList) = some y →
      out ++ '/' :: s!"est-p{q}-hashes-s64-r{r}.dat".toList ∈ L' ∧
      F₂ (out ++ '/' :: s!"est-p{q}-hashes-s64-r{r}.dat".toList) = some y := by
  have hs : '/' ∉ "64".toList := by decide
  have hp : p < 256 := by omega
  obtain ⟨k1, k2, k3, k4, rs, k5, k6⟩ := prepared hs
    (values := fun r => (List.range count).map fun i => (env.draw64 r i).toNat)
    (main_gen (ln := ln) (c32 := c32) (c64 := c64) (env := env) hcfg hj hc hr' (isValue_plain hiv)).2 (threads_pos he) hi0 hiv hil hr hgi hF₁ hL
  have hdat : ∀ r, Dat (generateName "64".toList r) := dat_generate hs
  obtain ⟨-, k7⟩ := stage_hashes (F := F₁) (main_hashes hcfg hj' hp (isValue_plain hov) k3 k4).2 (threads_pos he')
    k6 k5 ho0 hol (fun r r' e => hne (slash_inj (hdat r).slash (dat_hashes (hdat r') p).slash e).1) hdat
    (fun r r' => C78_names) k1 (want := fun r => plusLines cfg ln p ((List.range count).map (env.draw64 r)))
    (fun i r _ => by
      have := C78_plus_hashes (ln := ln) (ords := env'.ords i) hcfg c64 h1 h2 ((List.range count).map (env.draw64 r))
        (by simpa using hc)
      rw [List.map_map] at this
      exact this)
  obtain ⟨-, k8⟩ := k7 F₂ hF₂
  have key : ∀ f ∈ L₀, (∀ r < runs, f ≠ out ++ '/' :: s!"est-p{p}-hashes-s64-r{r}.dat".toList) →
      f ∈ L' ∧ F₂ f = F₀ f := by
    intro f hf hd
    obtain ⟨e1, name, rfl, e2, e3⟩ := (hgo.2 f).1 hf
    have e4 : F₂ (out ++ '/' :: name) = F₀ (out ++ '/' :: name) := by
      rw [k8 _ fun r hr e => hd r hr (by rw [← e, estName_64]), k2 _ fun r _ e => hne (slash_inj (hdat r).slash e2 e).1]
    exact ⟨(hL'.2 _).2 ⟨by rwa [e4], name, rfl, e2, e3⟩, e4⟩
  refine ⟨key, fun q r hq y hy => ?_⟩
  have hd := dat_hashes (hdat r) q
  rw [← estName_64] at hy ⊢
  obtain ⟨e1, e2⟩ := key _ ((hgo.2 _).2 ⟨by rw [hy]; simp, _, rfl, hd.slash, hd.dot, hd.ext⟩) fun r' _ e => by
    rw [← estName_64] at e
    have := List.append_cancel_left e
    exact hq (estName_p (by simpa using this))
  exact ⟨e1, e2.trans hy⟩

/-- **C90**, panics: `run` with a precision that `new` rejects never succeeds, and neither does `run --type hll` on the
hashes of `prepare --size 64`, unless all of them happen to fit in 32 bits. -/
theorem C90_panics (hcfg : cfg.usizeBits = 64) (c32 : Serde.Codec U32) (c64 : Serde.Codec U64) (env env' : Env)
    (he : 1 ≤ env.cpus) {j j' count runs : Nat} (hj : j < 2 ^ 64) (hj' : j' < 2 ^ 64)
    (hc : count < 2 ^ 64) (hr : 1 ≤ runs) (hr' : runs < 2 ^ 64) (hp : p < 256) {inp out : Text}
    (hi0 : inp ≠ []) (hiv : inp.head? ≠ some '-') (hil : inp.getLast? ≠ some '/') (ho0 : out ≠ [])
    (hov : out.head? ≠ some '-') (hol : out.getLast? ≠ some '/') (hne : inp ≠ out) {F₀ F₁ F₂ : Files Text}
    {L : List Text} (hgi : Globbed F₀ inp [])
    (hF₁ : Completes (main cfg ln c32 c64 env (prepareCommand (j : ℤ) "64".toList (count : ℤ) (runs : ℤ) inp)) F₀ F₁)
    (hL : Globbed F₁ inp L) :
    (¬ (4 ≤ p ∧ p ≤ 18) →
      ¬ Completes (main cfg ln c32 c64 env' (runHashesCommand (j' : ℤ) "hllp".toList (p : ℤ) out L)) F₁ F₂) ∧
    (¬ (4 ≤ p ∧ p ≤ 16) ∨ (∃ r < runs, ∃ i < count, 2 ^ 32 ≤ (env.draw64 r i).toNat) →
      ¬ Completes (main cfg ln c32 c64 env' (runHashesCommand (j' : ℤ) "hll".toList (p : ℤ) out L)) F₁ F₂) := by
  have hs : '/' ∉ "64".toList := by decide
  obtain ⟨k1, k2, k3, k4, rs, k5, k6⟩ := prepared hs
    (values := fun r => (List.range count).map fun i => (env.draw64 r i).toNat)
    (main_gen (ln := ln) (c32 := c32) (c64 := c64) (env := env) hcfg hj hc hr' (isValue_plain hiv)).2 (threads_pos he) hi0 hiv hil hr hgi hF₁ hL
  have hdat : ∀ r, Dat (generateName "64".toList r) := dat_generate hs
  have hne' : ∀ r r', inp ++ '/' :: generateName "64".toList r ≠
      out ++ '/' :: hashesName p (generateName "64".toList r') :=
    fun r r' e => hne (slash_inj (hdat r).slash (dat_hashes (hdat r') p).slash e).1
  obtain ⟨g1, g2⟩ := main_hashes (cfg := cfg) (ln := ln) (c32 := c32) (c64 := c64) (env := env') hcfg hj' hp
    (isValue_plain hov) k3 k4
  constructor
  · intro h
    obtain ⟨T, ρ, e0, e1, e2, e3, e4, e5, e6⟩ := tasks_hashes (p := p) k6 k5 ho0 hol hne' hdat (fun r r' => C78_names) k1
      (run := fun i => runPlus cfg ln c64 (env'.ords i) (toString p).toList)
    rw [← e0] at g2
    obtain ⟨i, -⟩ := e2 0 (by omega)
    exact not_completes g2 e4 e5 (i := i) (by
      rw [e6]; exact (C78_panics hcfg c64 c32 hp _).1 (.inl h)) F₂
  · intro h
    obtain ⟨T, ρ, e0, e1, e2, e3, e4, e5, e6⟩ := tasks_hashes (p := p) k6 k5 ho0 hol hne' hdat (fun r r' => C78_names) k1
      (run := fun i => Evl.run cfg ln c32 (env'.ords i) (toString p).toList)
    rw [← e0] at g1
    rcases h with h | ⟨r, hr, i, hi, h⟩
    · obtain ⟨i, -⟩ := e2 0 (by omega)
      exact not_completes g1 e4 e5 (i := i) (by
        rw [e6]; exact (C78_panics hcfg c64 c32 hp _).2 (.inl h)) F₂
    · obtain ⟨l, rfl⟩ := e2 r hr
      exact not_completes g1 e4 e5 (i := l) (by
        rw [e6]
        refine (C78_panics hcfg c64 c32 hp _).2 (.inr fun hall => ?_)
        have := hall _ (List.mem_map_of_mem (f := fun i => (env.draw64 (ρ l) i).toNat) (List.mem_range.2 hi))
        omega) F₂

/-- **C90**, rejected command lines: negative numbers, and `run` on an empty directory. -/
theorem C90_rejected (j count runs precision : ℤ) {size type output file : Text} (files : List Text)
    (hs : size = "32".toList ∨ size = "64".toList) (ht : type = "hll".toList ∨ type = "hllp".toList)
    (ho : isValue output = true) :
    (j < 0 ∨ count < 0 ∨ runs < 0 → main cfg ln c32 c64 env (prepareCommand j size count runs output) = none) ∧
    (j < 0 ∨ precision < 0 ∨ files = [] →
      main cfg ln c32 c64 env (runHashesCommand j type precision output files) = none) ∧
    (j < 0 ∨ precision < 0 ∨ runs < 0 →
      main cfg ln c32 c64 env (runCardinalitiesCommand j type precision output runs file) = none) := by
  have hj : ∀ ts, (j < 0 → commandLine none ("--jobs".toList :: Exp.str j :: ts) = none) ∧
      (¬ j < 0 → commandLine none ("--jobs".toList :: Exp.str j :: ts) = commandLine (some (Exp.str j)) ts) := by
    intro ts
    constructor
    · intro h
      obtain ⟨n, hn⟩ := str_neg h
      have : isValue (Exp.str j) = false := by simp [hn, isValue, display_ne_nil]
      rw [commandLine, if_neg (by decide), if_neg (by decide), if_pos rfl]
      simp [this]
    · intro h
      obtain ⟨n, rfl⟩ := Int.eq_ofNat_of_zero_le (not_lt.1 h)
      rw [str_nat, commandLine_jobs]
  have hg : ∀ jobs ts, parseArgs genOpts none [] ts = none → commandLine jobs ("gen".toList :: ts) = none := by
    intro jobs ts h
    cases ts <;> rw [commandLine, if_pos rfl, h]
  have hr : ∀ jobs ts, parseArgs runOpts none [] ts = none → commandLine jobs ("run".toList :: ts) = none := by
    intro jobs ts h
    cases ts <;> rw [commandLine, if_neg (by decide), if_pos rfl, h]
  have hv : ∀ z : ℤ, ¬ z < 0 → isValue (Exp.str z) = true := by
    intro z h
    obtain ⟨n, rfl⟩ := Int.eq_ofNat_of_zero_le (not_lt.1 h)
    rw [str_nat, isValue_display]
  have hmain : ∀ argv, commandLine none argv = none → main cfg ln c32 c64 env argv = none := by
    intro argv h
    rw [main, h]
    rfl
  have hty : isValue type = true ∧ ∀ o : Opt, o = { name := "type", possible := some ["hll", "hllp"] } →
      o.accepts type = true := by
    rcases ht with rfl | rfl <;> exact ⟨by decide, by rintro o rfl; decide⟩
  have hsz : isValue size = true ∧ ∀ o : Opt, o = { name := "size", possible := some ["32", "64"] } →
      o.accepts size = true := by
    rcases hs with rfl | rfl <;> exact ⟨by decide, by rintro o rfl; decide⟩
  have hrun : ∀ mode ts, (mode = "hashes".toList ∨ mode = "cardinalities".toList) →
      (precision < 0 ∨ parseArgs runOpts (some ({ name := "output" }, [output]))
        [("type", [type]), ("mode", [mode]), ("precision", [Exp.str precision])] ts = none) →
      parseArgs runOpts none [] ("--type".toList :: type :: "--mode".toList :: mode :: "--precision".toList ::
        Exp.str precision :: "--output".toList :: output :: ts) = none := by
    intro mode ts hm h
    rw [parse_option (o := { name := "type", possible := some ["hll", "hllp"] }) (by decide) (by decide +kernel) rfl rfl,
      parse_value hty.1 (.inl rfl) (hty.2 _ rfl),
      parse_option (o := { name := "mode", possible := some ["hashes", "cardinalities"] }) (by decide) (by decide +kernel)
        rfl rfl,
      parse_value (by rcases hm with rfl | rfl <;> decide) (.inl rfl) (by rcases hm with rfl | rfl <;> decide),
      parse_option (o := { name := "precision" }) (by decide) (by decide +kernel) rfl rfl]
    by_cases hp : precision < 0
    · exact neg_rejected hp _ _ _ _
    · rw [parse_value (hv _ hp) (.inl rfl) rfl,
        parse_option (o := { name := "output" }) (by decide) (by decide +kernel) rfl rfl,
        parse_value ho (.inl rfl) rfl]
      exact h.resolve_left hp
  refine ⟨fun h => hmain _ ?_, fun h => hmain _ ?_, fun h => hmain _ ?_⟩
  · rw [prepareCommand]
    by_cases hj0 : j < 0
    · exact (hj _).1 hj0
    rw [(hj _).2 hj0]
    apply hg
    rw [parse_option (o := { name := "size", possible := some ["32", "64"] }) (by decide) (by decide +kernel) rfl rfl,
      parse_value hsz.1 (.inl rfl) (hsz.2 _ rfl),
      parse_option (o := { name := "count" }) (by decide) (by decide +kernel) rfl rfl]
    by_cases hc0 : count < 0
    · exact neg_rejected hc0 _ _ _ _
    rw [parse_value (hv _ hc0) (.inl rfl) rfl,
      parse_option (o := { name := "runs" }) (by decide) (by decide +kernel) rfl rfl]
    exact neg_rejected (by omega) _ _ _ _
  · rw [runHashesCommand, runCommand, List.cons_append, List.cons_append]
    by_cases hj0 : j < 0
    · exact (hj _).1 hj0
    rw [(hj _).2 hj0]
    refine hr _ _ (hrun _ _ (.inl rfl) ?_)
    rcases h with h | h | rfl
    · exact absurd h hj0
    · exact .inl h
    · right
      change parseArgs runOpts _ _ ["--input".toList] = none
      rw [parse_option (o := { name := "input", multiple := true }) (by decide) (by decide +kernel) rfl rfl]
      rfl
  · rw [runCardinalitiesCommand, runCommand, List.cons_append, List.cons_append]
    by_cases hj0 : j < 0
    · exact (hj _).1 hj0
    rw [(hj _).2 hj0]
    refine hr _ _ (hrun _ _ (.inr rfl) ?_)
    rcases h with h | h | h
    · exact absurd h hj0
    · exact .inl h
    · right
      change parseArgs runOpts _ _ ("--runs".toList :: Exp.str runs :: _) = none
      rw [parse_option (o := { name := "runs" }) (by decide) (by decide +kernel) rfl rfl]
      exact neg_rejected h _ _ _ _

/-- **C90**: a precision that does not fit in 8 bits makes `run` panic before it reads a file. -/
theorem C90_precision {j precision runs : Nat} (hp : 256 ≤ precision) (hcfg : cfg.usizeBits = 64) (hj : j < 2 ^ 64)
    {type output file : Text} {files : List Text} (ht : type = "hll".toList ∨ type = "hllp".toList)
    (ho : isValue output = true) (hf : isValue file = true) (h0 : files ≠ []) (hfs : ∀ f ∈ files, isValue f = true) :
    main cfg ln c32 c64 env (runHashesCommand (j : ℤ) type (precision : ℤ) output files) = some (.error .unwrapNone) ∧
    main cfg ln c32 c64 env (runCardinalitiesCommand (j : ℤ) type (precision : ℤ) output (runs : ℤ) file) =
      some (.error .unwrapNone) := by
  have hj' := unwrap_parse (w := cfg.usizeBits) (n := j) (by rwa [hcfg])
  have hpp : unwrap (parse 8 (display precision)) = .error .unwrapNone := by
    rw [parse_display, if_neg (by omega)]
    rfl
  have key : ∀ (m : Matches) (hashes cards : Nat → Text → Text → R Text) (size mode : Text) (threads : Nat),
      valueOf m "mode" = some mode → valueOf m "precision" = some (display precision) →
      runMain cfg hashes cards size threads m = .error .unwrapNone := by
    intro m hashes cards size mode threads h1 h2
    rw [runMain, h1, h2, unwrap_some, unwrap_some, ok_bind, ok_bind, hpp]
    rfl
  have hend : ∀ m : Matches, valueOf m "type" = some type → ∀ mode, valueOf m "mode" = some mode →
      valueOf m "precision" = some (display precision) → ∀ argv,
      commandLine none argv = some (some (display j), .run m) →
      main cfg ln c32 c64 env argv = some (.error .unwrapNone) := by
    intro m h1 mode h2 h3 argv h4
    rw [main, h4]
    simp only [Option.map_some, Option.getD_some, hj', ok_bind]
    rw [h1]
    rcases ht with rfl | rfl
    · rw [if_pos rfl, key _ _ _ _ _ _ h2 h3]
    · rw [if_neg (by decide), if_pos rfl, key _ _ _ _ _ _ h2 h3]
  constructor
  · refine hend [("type", [type]), ("mode", ["hashes".toList]), ("precision", [display precision]),
      ("output", [output]), ("input", files)] rfl "hashes".toList rfl rfl _ ?_
    rw [runHashesCommand, runCommand, str_nat, str_nat, List.cons_append, List.cons_append, List.cons_append,
      commandLine_jobs, commandLine_run (parse_run_hashes ht (isValue_display _) ho h0 hfs) rfl]
  · refine hend [("type", [type]), ("mode", ["cardinalities".toList]), ("precision", [display precision]),
      ("output", [output]), ("runs", [display runs]), ("cardinalities", [file])] rfl "cardinalities".toList rfl rfl _ ?_
    rw [runCardinalitiesCommand, runCommand, str_nat, str_nat, str_nat, List.cons_append, List.cons_append,
      List.cons_append, commandLine_jobs, commandLine_run (parse_run_cards ht (isValue_display _) ho
        (isValue_display _) hf) rfl]

/-! ## Concrete cases -/

/-- Command lines as the script writes them. -/
example : prepareCommand 4 "64".toList 100000 100 "data".toList = ["--jobs", "4", "gen", "--size", "64", "--count",
      "100000", "--runs", "100", "--output", "data"].map String.toList ∧
    runHashesCommand 4 "hllp".toList 14 "out".toList ["data/hashes-s64-r0.dat".toList] = ["--jobs", "4", "run", "--type",
      "hllp", "--mode", "hashes", "--precision", "14", "--output", "out", "--input",
      "data/hashes-s64-r0.dat"].map String.toList ∧
    runCardinalitiesCommand 4 "hll".toList 16 "out".toList 100 (cardinalitiesPath "data".toList) = ["--jobs", "4", "run",
      "--type", "hll", "--mode", "cardinalities", "--precision", "16", "--output", "out", "--runs", "100",
      "--cardinalities", "data/cardinalities.dat"].map String.toList := by decide +kernel

/-- Other command lines: the order of the options is free; an unknown option, an impossible value, an option given
twice, a missing option and a value without option are errors. -/
example :
    let cl := fun l : List String => (commandLine none (l.map String.toList)).isSome
    cl ["gen", "--runs", "1", "--count", "2", "--output", "x", "--size", "32"] = true ∧
    cl ["run", "--input", "a", "b", "--type", "hll", "--mode", "hashes", "--precision", "4", "--output", "x"] = true ∧
    cl [] = true ∧ cl ["gen", "--size", "16", "--count", "2", "--runs", "1", "--output", "x"] = false ∧
    cl ["gen", "--size", "32", "--count", "2", "--runs", "1"] = false ∧
    cl ["gen", "--size", "32", "--size", "32", "--count", "2", "--runs", "1", "--output", "x"] = false ∧
    cl ["run", "--type", "hll", "--mode", "cardinalities", "--precision", "4", "--output", "x", "--runs", "3"] = false ∧
    cl ["run", "--type", "hll", "--mode", "hashes", "--precision", "4", "--output", "x", "y"] = false ∧
    cl ["--jobs", "gen"] = true ∧ cl ["--job", "2"] = false ∧ cl ["plot"] = false := by decide +kernel

/-- The first experiment of the script with four runs of 100 hashes at precision 14, on two and on three threads: the
hypotheses hold if there are no files. -/
example (c32 : Serde.Codec U32) (c64 : Serde.Codec U64) (env : Env) (he : 1 ≤ env.cpus) :
    ∃ F₁ F₂ L, Completes (main Cfg.debug64 ln c32 c64 env (prepareCommand 2 "64".toList 100 4 "data".toList))
      (fun _ => none) F₁ ∧ Globbed F₁ "data".toList L ∧
      Completes (main Cfg.debug64 ln c32 c64 env (runHashesCommand 3 "hllp".toList 14 "out".toList L)) F₁ F₂ := by
  have hg : ∀ d, Globbed (fun _ => none) d [] := fun d => ⟨List.nodup_nil, by simp⟩
  obtain ⟨k1, k2⟩ := C90_plus_hashes (cfg := Cfg.debug64) (ln := ln) (p := 14) (fun _ => .nan) (fun _ => .nan)
    (fun _ => .nan) rfl c32 c64 env env he he (j := 2) (j' := 3) (count := 100) (runs := 4) (by norm_num) (by norm_num)
    (by norm_num) (by norm_num) (by norm_num) (by norm_num) (by norm_num) (inp := "data".toList) (out := "out".toList)
    (by decide) (by decide) (by decide) (by decide) (by decide) (by decide) (by decide) (hg _) (hg _)
  obtain ⟨F₁, hF₁⟩ := k1.completes
  obtain ⟨L, hL⟩ : ∃ L, Globbed F₁ "data".toList L := by
    obtain ⟨e1, e2⟩ := (stage_gen
      (values := fun r => (List.range 100).map fun i => (env.draw64 r i).toNat) (main_gen (cfg := Cfg.debug64) (ln := ln)
        (c32 := c32) (c64 := c64) (env := env) (j := 2) (count := 100) (runs := 4) rfl (by norm_num) (by norm_num)
        (by norm_num) (by decide)).2
      (threads_pos he) (by decide) (by decide)).2 F₁ hF₁
    exact ⟨_, glob_exists (hg _) (fun r hr => by rw [e1 r hr]; simp) e2 (dat_generate (by decide)) fun r r' => C78_names⟩
  obtain ⟨F₂, hF₂⟩ := (k2 F₁ L hF₁ hL).1.completes
  exact ⟨F₁, F₂, L, hF₁, hL, hF₂⟩

end HLL
