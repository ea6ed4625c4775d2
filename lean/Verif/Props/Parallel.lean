import Verif.Proofs.Parallel
import Verif.Props.Evaluation
import Verif.Props.Small

/-!
# C89: the evaluation program with several threads

The tasks of `evl gen` and `evl run` are distributed over threads and share the file system.  Any interleaving of
their system calls is considered.
-/

namespace HLL
open Spec F64 Exps Evl Finset

variable {cfg : Cfg} {ln : F64 → F64} {ords : Nat → IterOrder × IterOrder} {p n jobs k : Nat}
  {Id : Type} [DecidableEq Id] {F : Files Id} {loc : Text → Id}

/-- **C89**, in general: tasks that write different files and read none of the files written.  For every number of
threads and every interleaving of their calls, after any number of calls, no other file has changed; the output
file of a task that is finished holds what the task computes from the files as they were; that of a task that
panicked has not changed; and any other is as it was or holds the beginning of that text.  So does it after a
crash. -/
theorem C89_tasks {T : Fin n → Evl.Task Id} (hio : ∀ i j a, (T i).input = some a → (T j).output ≠ a)
    (hd : ∀ i j, (T i).output = (T j).output → i = j) {c : Config Id n} (h : Exec T jobs k (start F) c) :
    (∀ a, (∀ i, (T i).output ≠ a) → c.files a = F a) ∧
    ∀ i,
      (c.stage i = .finished → ∃ y, (T i).result F = .ok y ∧ c.files (T i).output = some y) ∧
      (c.stage i = .panicked →
        (∃ e, (T i).result F = .error e) ∧ c.files (T i).output = F (T i).output) ∧
      (c.files (T i).output = F (T i).output ∨
        ∃ y w, (T i).result F = .ok y ∧ w <+: y ∧ c.files (T i).output = some w) := by
  have hd' : Function.Injective fun i => (T i).output := fun i j e => hd i j e
  exact ⟨(h.inv hio (.inl hd')).other, fun i => ⟨(h.final hio hd' i).1, (h.final hio hd' i).2, h.always hio hd' i⟩⟩

/-- **C89**, the end: as long as some task has not come to its end there is a next call, and there are at most as many
calls as characters to read and to write, and five more for each task.  So every execution ends. -/
theorem C89_ends {T : Fin n → Evl.Task Id} (hj : 1 ≤ jobs) (hio : ∀ i j a, (T i).input = some a → (T j).output ≠ a)
    (hd : (∀ i j, (T i).output = (T j).output → i = j) ∨ jobs = 1) {c : Config Id n}
    (h : Exec T jobs k (start F) c) :
    ((∃ i, (c.stage i).over = false) → ∃ c', Exec T jobs (k + 1) (start F) c') ∧
    k ≤ ∑ i, ((T i).cost F + 5) := by
  have hd' : Function.Injective (fun i => (T i).output) ∨ jobs ≤ 1 := by
    rcases hd with hd | hd
    · exact .inl fun i j e => hd i j e
    · exact .inr hd.le
  refine ⟨fun hf => ?_, ?_⟩
  · obtain ⟨c', hc⟩ := (h.inv hio hd').progress hj hio h.running hf
    exact ⟨c', h.step hc⟩
  · have := h.length_le hio hd'
    omega

/-- **C89**, one thread (the default): if several tasks write the same file, it holds what one of them computes. -/
theorem C89_one_thread {T : Fin n → Evl.Task Id} (hio : ∀ i j a, (T i).input = some a → (T j).output ≠ a)
    {c : Config Id n} (h : Exec T 1 k (start F) c) (ho : ∀ i, (c.stage i).over = true) (i : Fin n)
    (hi : c.stage i = .finished) :
    ∃ j y, (T j).output = (T i).output ∧ (T j).result F = .ok y ∧ c.files (T i).output = some y :=
  h.final_one hio ho i hi

/-! ## File names -/

namespace Evl

theorem join_inj {out a b : Text} (h : join out a = join out b) : a = b := by
  unfold join at h
  split at h
  · exact List.append_cancel_left h
  · simpa using List.append_cancel_left h

theorem hashesName_inj {a b : Text} (h : hashesName p a = hashesName p b) : a = b := by
  unfold hashesName at h
  exact List.append_cancel_left h

theorem cardsName_inj {size : Text} {r r' : Nat} (h : cardsName p size r = cardsName p size r') : r = r' := by
  unfold cardsName at h
  exact display_inj (List.append_cancel_left (List.append_cancel_right h))

theorem cardsName_eq (p : Nat) (size : String) (r : Nat) :
    cardsName p size.toList r = s!"est-p{p}-cards-s{size}-r{r}.dat".toList := by
  rw [String.toList_append, String.toList_append, String.toList_append, String.toList_append,
    String.toList_append, String.toList_append]
  unfold cardsName
  rw [display_eq, display_eq]
  rfl

theorem generateName_eq (size : String) (r : Nat) :
    generateName size.toList r = s!"hashes-s{size}-r{r}.dat".toList := by
  rw [String.toList_append, String.toList_append, String.toList_append, String.toList_append]
  unfold generateName
  rw [display_eq]
  rfl

end Evl

/-- The last part of a path. -/
example : fileName "data/run1/hashes-s64-r0.dat".toList = some "hashes-s64-r0.dat".toList ∧
    fileName "x".toList = some "x".toList ∧ fileName "a/b/./".toList = some "b".toList ∧
    fileName "a/..".toList = none ∧ fileName "./".toList = none ∧ fileName "/".toList = none ∧
    join "out".toList (hashesName 14 "x".toList) = "out/est-p14-x".toList ∧
    join "".toList (cardsName 16 "64".toList 12) = "est-p16-cards-s64-r12.dat".toList := by decide +kernel

/-- **C89**, the names: the output of mode `hashes` for the file `dir/base` is `out/est-p{p}-base`, whatever `dir`;
those of the two other loops end with the number of the run. -/
theorem C89_file_name {base : Text} (h0 : base ≠ []) (h1 : base ≠ ".".toList) (h2 : base ≠ "..".toList)
    (hs : '/' ∉ base) (p : Nat) {out : Text} (ho : out ≠ []) (hl : out.getLast? ≠ some '/') (size : String) (r : Nat) :
    fileName base = some base ∧ (∀ dir : Text, fileName (dir ++ '/' :: base) = some base) ∧
    join out (hashesName p base) = out ++ '/' :: s!"est-p{p}-".toList ++ base ∧
    join out (cardsName p size.toList r) = out ++ '/' :: s!"est-p{p}-cards-s{size}-r{r}.dat".toList ∧
    join out (generateName size.toList r) = out ++ '/' :: s!"hashes-s{size}-r{r}.dat".toList := by
  have hp : ∀ (b : Text) (cur : Text), '/' ∉ b → partsFrom cur b = [cur ++ b] := by
    intro b
    induction b with
    | nil => simp [partsFrom]
    | cons c cs ih =>
      intro cur hb
      simp only [List.mem_cons, not_or] at hb
      rw [partsFrom, if_neg (fun e => hb.1 e.symm), ih _ hb.2]
      simp
  have hd : ∀ (dir cur : Text), ∃ l, partsFrom cur (dir ++ '/' :: base) = l ++ [base] := by
    intro dir
    induction dir with
    | nil => intro cur; exact ⟨[cur], by simp [partsFrom, hp base [] hs]⟩
    | cons c cs ih =>
      intro cur
      rw [List.cons_append, partsFrom]
      split
      · obtain ⟨l, e⟩ := ih []
        exact ⟨cur :: l, by rw [e]; rfl⟩
      · exact ih _
  have hk : [base].filter (fun c : Text => c ≠ [] ∧ c ≠ ['.']) = [base] := by
    have h1' : base ≠ ['.'] := h1
    simp [h0, h1']
  have h2' : base ≠ ['.', '.'] := h2
  have hj : ∀ a, join out a = out ++ '/' :: a := fun a => by simp [join, ho, hl]
  have hts : ∀ s : String, toString s = s := fun _ => rfl
  refine ⟨?_, fun dir => ?_, ?_, ?_, ?_⟩
  · rw [fileName, hp _ _ hs, List.nil_append, hk]
    simp [h2']
  · obtain ⟨l, e⟩ := hd dir []
    rw [fileName, e, List.filter_append, hk]
    simp [h2']
  · rw [hj, hashesName]
    simp only [display_eq, String.toList_append, hts, List.append_assoc, List.cons_append]
    rfl
  · rw [hj, cardsName_eq]
  · rw [hj, generateName_eq]

/-! ## The three parallel loops -/

/-- **C89**, `evl gen`: whatever the number of threads and the interleaving, run `r` does not panic, and when it is
finished its file holds its values, one per line.  (`loc` says which file a path refers to; different names in the
output directory are different files.) -/
theorem C89_gen {runs : Nat} (size out : Text) (values : Fin runs → List Nat)
    (hloc : ∀ a b, loc (join out a) = loc (join out b) → a = b) {c : Config Id runs}
    (h : Exec (fun r => genTask loc size out (values r) r) jobs k (start F) c) (r : Fin runs) :
    c.stage r ≠ .panicked ∧
    (c.stage r = .finished → c.files (loc (join out (generateName size r))) =
      some (String.join ((values r).map fun v => s!"{v}\n")).toList) := by
  obtain ⟨-, h2⟩ := C89_tasks (by simp [genTask]) (fun i j e => Fin.ext (C78_names (hloc _ _ e))) h
  obtain ⟨e1, e2, -⟩ := h2 r
  constructor
  · intro hp
    obtain ⟨⟨e, he⟩, -⟩ := e2 hp
    cases he
  · intro hf
    obtain ⟨y, e3, e4⟩ := e1 hf
    obtain rfl : generate (values r) = y := by
      simpa [Evl.Task.result, genTask, pure, Except.pure] using e3
    rw [← generate_eq]
    exact e4

/-- The text that `run_plus` writes for the hashes `H`. -/
def plusLines (cfg : Cfg) (ln : F64 → F64) (p : Nat) (H : List U64) : Text :=
  (String.join ((List.range H.length).map fun k =>
    s!"{k + 1} {truncU64 (plusCount ln (Plus.biasOf cfg.search) p ((H.take (k + 1)).map BitVec.toNat).toFinset)}\n")).toList

/-- The text that `run` writes for the hashes `H`. -/
def pfLines (ln : F64 → F64) (p : Nat) (H : List U32) : Text :=
  (String.join ((List.range H.length).map fun k =>
    s!"{k + 1} {truncU64 (pfCount ln p ((H.take (k + 1)).map BitVec.toNat).toFinset)}\n")).toList

namespace Evl

/-- Mode `hashes` for either type. -/
theorem hashes_parallel {run : Fin n → Text → R Text} {out : Text} {files : Fin n → Text} {text want : Fin n → Text}
    (hrun : ∀ i, run i (text i) = .ok (want i)) (hin : ∀ i, F (loc (files i)) = some (text i))
    (hbase : ∀ i, (fileName (files i)).isSome)
    (hloc : ∀ a b, loc (join out a) = loc (join out b) → a = b)
    (hio : ∀ i j b, fileName (files j) = some b → loc (files i) ≠ loc (join out (hashesName p b)))
    (hd : ∀ i j, fileName (files i) = fileName (files j) → i = j) {c : Config Id n}
    (h : Exec (fun i => hashesTask loc (run i) p out (files i)) jobs k (start F) c) (i : Fin n) :
    c.stage i ≠ .panicked ∧
    (c.stage i = .finished → ∀ b, fileName (files i) = some b →
      c.files (loc (join out (hashesName p b))) = some (want i)) ∧
    c.files (loc (files i)) = some (text i) := by
  have hres : ∀ i, (hashesTask loc (run i) p out (files i)).result F = .ok (want i) := by
    intro i
    obtain ⟨b, hb⟩ := Option.isSome_iff_exists.1 (hbase i)
    rw [result_some (a := loc (files i)) rfl (hin i)]
    simp [hashesTask, hrun, hb, unwrap, bind, Except.bind, pure, Except.pure]
  have hout : ∀ i b, fileName (files i) = some b →
      (hashesTask loc (run i) p out (files i)).output = loc (join out (hashesName p b)) := by
    intro i b hb
    simp [hashesTask, hb]
  obtain ⟨h1, h2⟩ := C89_tasks (T := fun i => hashesTask loc (run i) p out (files i))
    (fun i j a ha => by
      obtain rfl : loc (files i) = a := by simpa [hashesTask] using ha
      obtain ⟨b, hb⟩ := Option.isSome_iff_exists.1 (hbase j)
      rw [hout j b hb]
      exact (hio i j b hb).symm)
    (fun i j e => by
      obtain ⟨b, hb⟩ := Option.isSome_iff_exists.1 (hbase i)
      obtain ⟨b', hb'⟩ := Option.isSome_iff_exists.1 (hbase j)
      simp only [hout _ _ hb, hout _ _ hb'] at e
      obtain rfl := hashesName_inj (hloc _ _ e)
      exact hd i j (by rw [hb, hb'])) h
  obtain ⟨e1, e2, -⟩ := h2 i
  refine ⟨fun hp => ?_, fun hf b hb => ?_, ?_⟩
  · obtain ⟨⟨e, he⟩, -⟩ := e2 hp
    rw [hres] at he
    cases he
  · obtain ⟨y, e3, e4⟩ := e1 hf
    simp only [hout i b hb, hres] at e3 e4
    cases e3
    exact e4
  · rw [h1 _ fun j => ?_, hin]
    obtain ⟨b, hb⟩ := Option.isSome_iff_exists.1 (hbase j)
    rw [hout j b hb]
    exact (hio i j b hb).symm

/-- Mode `cardinalities` for either type. -/
theorem cards_parallel {runs : Nat} {run : Fin runs → Text → R Text} {size out file text : Text} {want : Fin runs → Text}
    (hrun : ∀ i, run i text = .ok (want i)) (hin : F (loc file) = some text)
    (hloc : ∀ a b, loc (join out a) = loc (join out b) → a = b)
    (hio : ∀ r : Fin runs, loc file ≠ loc (join out (cardsName p size r))) {c : Config Id runs}
    (h : Exec (fun r => cardsTask loc (run r) p size out file r) jobs k (start F) c) (r : Fin runs) :
    c.stage r ≠ .panicked ∧
    (c.stage r = .finished → c.files (loc (join out (cardsName p size r))) = some (want r)) := by
  have hres : ∀ r : Fin runs, (cardsTask loc (run r) p size out file r).result F = .ok (want r) := by
    intro r
    rw [result_some (a := loc file) rfl hin]
    exact hrun r
  obtain ⟨h1, h2⟩ := C89_tasks (T := fun r : Fin runs => cardsTask loc (run r) p size out file r)
    (fun i j a ha => by
      obtain rfl : loc file = a := by simpa [cardsTask] using ha
      exact fun e => hio _ e.symm)
    (fun i j e => Fin.ext (cardsName_inj (hloc _ _ e))) h
  obtain ⟨e1, e2, -⟩ := h2 r
  constructor
  · intro hp
    obtain ⟨⟨e, he⟩, -⟩ := e2 hp
    rw [hres] at he
    cases he
  · intro hf
    obtain ⟨y, e3, e4⟩ := e1 hf
    simp only [hres] at e3
    cases e3
    exact e4

end Evl

/-- **C89**, `evl run` on files of hashes with `HyperLogLogPlus`: if the last parts of the paths differ, then whatever
the number of threads and the interleaving, no task panics, and when the task for file `i` is finished, its output
file has the lines that C78 describes, for the hashes in file `i`. -/
theorem C89_plus_hashes (hcfg : cfg.usizeBits = 64) (c : Serde.Codec U64) (ords : Fin n → Nat → IterOrder × IterOrder) (h1 : 4 ≤ p) (h2 : p ≤ 18)
    {out : Text} {files : Fin n → Text} {H : Fin n → List U64} (hl : ∀ i, (H i).length < 2 ^ 64)
    (hin : ∀ i, F (loc (files i)) = some (generate ((H i).map BitVec.toNat)))
    (hbase : ∀ i, (fileName (files i)).isSome)
    (hloc : ∀ a b, loc (join out a) = loc (join out b) → a = b)
    (hio : ∀ i j b, fileName (files j) = some b → loc (files i) ≠ loc (join out (hashesName p b)))
    (hd : ∀ i j, fileName (files i) = fileName (files j) → i = j) {s : Config Id n}
    (h : Exec (fun i => hashesTask loc (runPlus cfg ln c (ords i) (toString p).toList) p out (files i)) jobs k (start F) s)
    (i : Fin n) :
    s.stage i ≠ .panicked ∧
    (s.stage i = .finished → ∀ b, fileName (files i) = some b →
      s.files (loc (join out (hashesName p b))) = some (plusLines cfg ln p (H i))) ∧
    s.files (loc (files i)) = F (loc (files i)) := by
  rw [hin]
  exact hashes_parallel (fun i => C78_plus_hashes hcfg c h1 h2 (H i) (hl i)) hin hbase hloc hio hd h i

/-- **C89**, `evl run` on files of hashes with `HyperLogLogPF`. -/
theorem C89_pf_hashes (hcfg : cfg.usizeBits = 64) (c : Serde.Codec U32) (ords : Fin n → Nat → IterOrder × IterOrder) (h1 : 4 ≤ p) (h2 : p ≤ 16)
    {out : Text} {files : Fin n → Text} {H : Fin n → List U32} (hl : ∀ i, (H i).length < 2 ^ 64)
    (hin : ∀ i, F (loc (files i)) = some (generate ((H i).map BitVec.toNat)))
    (hbase : ∀ i, (fileName (files i)).isSome)
    (hloc : ∀ a b, loc (join out a) = loc (join out b) → a = b)
    (hio : ∀ i j b, fileName (files j) = some b → loc (files i) ≠ loc (join out (hashesName p b)))
    (hd : ∀ i j, fileName (files i) = fileName (files j) → i = j) {s : Config Id n}
    (h : Exec (fun i => hashesTask loc (Evl.run cfg ln c (ords i) (toString p).toList) p out (files i)) jobs k (start F) s)
    (i : Fin n) :
    s.stage i ≠ .panicked ∧
    (s.stage i = .finished → ∀ b, fileName (files i) = some b →
      s.files (loc (join out (hashesName p b))) = some (pfLines ln p (H i))) ∧
    s.files (loc (files i)) = F (loc (files i)) := by
  rw [hin]
  exact hashes_parallel (fun i => C78_pf_hashes hcfg c h1 h2 (H i) (hl i)) hin hbase hloc hio hd h i

/-- **C89**, `evl run` at given cardinalities, for both types: run `r` draws the hashes `rng r`. -/
theorem C89_plus_cardinalities (hcfg : cfg.usizeBits = 64) (c : Serde.Codec U64) (h1 : 4 ≤ p) (h2 : p ≤ 18)
    {runs : Nat} (ords : Fin runs → Nat → IterOrder × IterOrder) {out file : Text} (rng : Fin runs → Nat → U64) (ts : List Nat) (ht : ∀ t ∈ ts, t < 2 ^ 64)
    (hin : F (loc file) = some (List.intercalate ['\n'] (ts.map fun t => (toString t).toList)))
    (hloc : ∀ a b, loc (join out a) = loc (join out b) → a = b)
    (hio : ∀ r : Fin runs, loc file ≠ loc (join out (cardsName p "64".toList r)))
    {s : Config Id runs}
    (h : Exec (fun r => cardsTask loc (runPlusAt cfg ln c (ords r) (rng r) (toString p).toList) p "64".toList out file r)
      jobs k (start F) s) (r : Fin runs) :
    s.stage r ≠ .panicked ∧
    (s.stage r = .finished → s.files (loc (join out (cardsName p "64".toList r))) =
      some (String.join ((List.range ts.length).map fun i =>
        let t := (ts.take (i + 1)).foldl max 0
        s!"{t} {truncU64 (plusCount ln (Plus.biasOf cfg.search) p
          ((Finset.range t).image fun j => (rng r j).toNat))}\n")).toList) :=
  cards_parallel (fun r => C78_plus_cardinalities hcfg c h1 h2 (rng r) ts ht) hin hloc hio h r

@[inherit_doc C89_plus_cardinalities]
theorem C89_pf_cardinalities (hcfg : cfg.usizeBits = 64) (c : Serde.Codec U32) (h1 : 4 ≤ p) (h2 : p ≤ 16)
    {runs : Nat} (ords : Fin runs → Nat → IterOrder × IterOrder) {out file : Text} (rng : Fin runs → Nat → U32) (ts : List Nat) (ht : ∀ t ∈ ts, t < 2 ^ 64)
    (hin : F (loc file) = some (List.intercalate ['\n'] (ts.map fun t => (toString t).toList)))
    (hloc : ∀ a b, loc (join out a) = loc (join out b) → a = b)
    (hio : ∀ r : Fin runs, loc file ≠ loc (join out (cardsName p "32".toList r)))
    {s : Config Id runs}
    (h : Exec (fun r => cardsTask loc (runAt cfg ln c (ords r) (rng r) (toString p).toList) p "32".toList out file r)
      jobs k (start F) s) (r : Fin runs) :
    s.stage r ≠ .panicked ∧
    (s.stage r = .finished → s.files (loc (join out (cardsName p "32".toList r))) =
      some (String.join ((List.range ts.length).map fun i =>
        let t := (ts.take (i + 1)).foldl max 0
        s!"{t} {truncU64 (pfCount ln p ((Finset.range t).image fun j => (rng r j).toNat))}\n")).toList) :=
  cards_parallel (fun r => C78_pf_cardinalities hcfg c h1 h2 (rng r) ts ht) hin hloc hio h r

/-! ## Files with the same name -/

/-- **C89**, a race: two files in different directories whose paths end with the same part have the same output
file.  With two threads it can happen that both tasks finish and this file holds the text for the first one,
followed by the end of the text for the second one. -/
theorem C89_same_name (hcfg : cfg.usizeBits = 64) (c : Serde.Codec U64) (h1 : 4 ≤ p) (h2 : p ≤ 18) (hj : 2 ≤ jobs)
    {out f g b : Text} {H H' : List U64} (hl : H.length < 2 ^ 64) (hl' : H'.length < 2 ^ 64)
    (hf : F (loc f) = some (generate (H.map BitVec.toNat))) (hg : F (loc g) = some (generate (H'.map BitVec.toNat)))
    (hfb : fileName f = some b) (hgb : fileName g = some b) (h0 : H ≠ [])
    (hlen : (plusLines cfg ln p H).length ≤ (plusLines cfg ln p H').length) :
    ∃ k s, Exec (fun i : Fin 2 => hashesTask loc (runPlus cfg ln c ords (toString p).toList) p out
        (if i = 0 then f else g)) jobs k (start F) s ∧ (∀ i, s.stage i = .finished) ∧
      s.files (loc (join out (hashesName p b))) =
        some (plusLines cfg ln p H ++ (plusLines cfg ln p H').drop (plusLines cfg ln p H).length) := by
  set T : Fin 2 → Evl.Task Id := fun i => hashesTask loc (runPlus cfg ln c ords (toString p).toList) p out
    (if i = 0 then f else g) with hT
  have ho : ∀ i, (T i).output = loc (join out (hashesName p b)) := by
    intro i
    fin_cases i <;> simp [hT, hashesTask, hfb, hgb]
  have hw0 : (T 0).work (generate (H.map BitVec.toNat)) = .ok (plusLines cfg ln p H) := by
    simp only [hT, hashesTask, if_pos, hfb]
    rw [C78_plus_hashes hcfg c h1 h2 H hl]
    rfl
  have hw1 : (T 1).work (generate (H'.map BitVec.toNat)) = .ok (plusLines cfg ln p H') := by
    simp only [hT, hashesTask, if_neg (by decide : ¬ (1 : Fin 2) = 0), hgb]
    rw [C78_plus_hashes hcfg c h1 h2 H' hl']
    rfl
  have hne : plusLines cfg ln p H ≠ [] := by
    obtain ⟨x, H, rfl⟩ := List.exists_cons_of_ne_nil h0
    rw [plusLines, List.length_cons, List.range_succ_eq_map, List.map_cons, String.join_cons, String.toList_append]
    intro hcon
    have := (List.append_eq_nil_iff.1 hcon).1
    simp at this
  obtain ⟨k, G, e1, e2⟩ := race (T := T) (a := loc f) (b := loc g) hj rfl rfl ((ho 0).trans (ho 1).symm) hf hg hw0 hw1
    hne hlen
  rw [ho] at e2
  exact ⟨k, _, e1, fun _ => rfl, e2⟩

/-- **C89**, a gap: in the same situation it can also happen that both tasks finish and the file holds the text for the
first one, then characters with code 0, and then the end of the text for the second one, if this is written in parts (as
it is if it is longer than the buffer). -/
theorem C89_gap (hcfg : cfg.usizeBits = 64) (c : Serde.Codec U64) (h1 : 4 ≤ p) (h2 : p ≤ 18) (hj : 2 ≤ jobs)
    {out f g b y z : Text} {H H' : List U64} (hl : H.length < 2 ^ 64) (hl' : H'.length < 2 ^ 64)
    (hf : F (loc f) = some (generate (H.map BitVec.toNat))) (hg : F (loc g) = some (generate (H'.map BitVec.toNat)))
    (hfb : fileName f = some b) (hgb : fileName g = some b) (h0 : H ≠ [])
    (hyz : plusLines cfg ln p H' = y ++ z) (hz : z ≠ []) (hlen : (plusLines cfg ln p H).length ≤ y.length) :
    ∃ k s, Exec (fun i : Fin 2 => hashesTask loc (runPlus cfg ln c ords (toString p).toList) p out
        (if i = 0 then f else g)) jobs k (start F) s ∧ (∀ i, s.stage i = .finished) ∧
      s.files (loc (join out (hashesName p b))) =
        some (plusLines cfg ln p H ++ List.replicate (y.length - (plusLines cfg ln p H).length) '\x00' ++ z) := by
  set T : Fin 2 → Evl.Task Id := fun i => hashesTask loc (runPlus cfg ln c ords (toString p).toList) p out
    (if i = 0 then f else g) with hT
  have ho : ∀ i, (T i).output = loc (join out (hashesName p b)) := by
    intro i
    fin_cases i <;> simp [hT, hashesTask, hfb, hgb]
  have hw0 : (T 0).work (generate (H.map BitVec.toNat)) = .ok (plusLines cfg ln p H) := by
    simp only [hT, hashesTask, if_pos, hfb]
    rw [C78_plus_hashes hcfg c h1 h2 H hl]
    rfl
  have hw1 : (T 1).work (generate (H'.map BitVec.toNat)) = .ok (plusLines cfg ln p H') := by
    simp only [hT, hashesTask, if_neg (by decide : ¬ (1 : Fin 2) = 0), hgb]
    rw [C78_plus_hashes hcfg c h1 h2 H' hl']
    rfl
  have hne : plusLines cfg ln p H ≠ [] := by
    obtain ⟨x, H, rfl⟩ := List.exists_cons_of_ne_nil h0
    rw [plusLines, List.length_cons, List.range_succ_eq_map, List.map_cons, String.join_cons, String.toList_append]
    intro hcon
    have := (List.append_eq_nil_iff.1 hcon).1
    simp at this
  rw [hyz] at hw1
  obtain ⟨k, G, e1, e2⟩ := race_gap (T := T) (a := loc f) (b := loc g) hj rfl rfl ((ho 0).trans (ho 1).symm) hf hg hw0
    hw1 hne hz hlen
  rw [ho] at e2
  exact ⟨k, _, e1, fun _ => rfl, e2⟩

/-- The texts for the files of the examples below. -/
theorem example_lines (hln : LnSpec ln) :
    plusLines cfg ln 14 [2 ^ 63] = "1 1\n".toList ∧
    plusLines cfg ln 14 [2 ^ 63, 2 ^ 63] = "1 1\n2 1\n".toList ∧
    plusLines cfg ln 14 [2 ^ 63, 2 ^ 62, 2 ^ 61] = "1 1\n2 2\n3 3\n".toList := by
  have hcount : ∀ S : Finset Nat, (∀ x ∈ S, x < 2 ^ 64) → (codes 14 S).card ≤ 5000 → ∀ k, (codes 14 S).card = k →
      5 * k ≤ capacity 14 → truncU64 (plusCount ln (Plus.biasOf cfg.search) 14 S) = k := by
    intro S hS h5 k hk hc
    obtain ⟨y, e1, e2⟩ := plus_small hln (Plus.biasOf cfg.search) hS (by rw [hk]; exact hc) h5
    rw [e1, truncU64, e2, hk]
    simp only [Int.toNat_natCast]
    omega
  have hcap : capacity 14 = 4 * 2 ^ 14 / 5 := rfl
  have c1 : truncU64 (plusCount ln (Plus.biasOf cfg.search) 14 {2 ^ 63}) = 1 :=
    hcount _ (by decide) (by decide +kernel) 1 (by decide +kernel) (by rw [hcap]; norm_num)
  have c2 : truncU64 (plusCount ln (Plus.biasOf cfg.search) 14 {2 ^ 63, 2 ^ 62}) = 2 :=
    hcount _ (by decide) (by decide +kernel) 2 (by decide +kernel) (by rw [hcap]; norm_num)
  have c3 : truncU64 (plusCount ln (Plus.biasOf cfg.search) 14 {2 ^ 63, 2 ^ 62, 2 ^ 61}) = 3 :=
    hcount _ (by decide) (by decide +kernel) 3 (by decide +kernel) (by rw [hcap]; norm_num)
  have t1 : plusLines cfg ln 14 [2 ^ 63, 2 ^ 63] = "1 1\n2 1\n".toList := by
    have e1 : ((([2 ^ 63, 2 ^ 63] : List U64).take 1).map BitVec.toNat).toFinset = {2 ^ 63} := by decide +kernel
    have e2 : ((([2 ^ 63, 2 ^ 63] : List U64).take 2).map BitVec.toNat).toFinset = {2 ^ 63} := by decide +kernel
    rw [plusLines, show ([2 ^ 63, 2 ^ 63] : List U64).length = 2 from rfl, show List.range 2 = [0, 1] from rfl]
    simp only [List.map_cons, List.map_nil, Nat.zero_add, Nat.reduceAdd, e1, e2, c1]
    decide +kernel
  have t2 : plusLines cfg ln 14 [2 ^ 63, 2 ^ 62, 2 ^ 61] = "1 1\n2 2\n3 3\n".toList := by
    have e1 : ((([2 ^ 63, 2 ^ 62, 2 ^ 61] : List U64).take 1).map BitVec.toNat).toFinset = {2 ^ 63} := by decide +kernel
    have e2 : ((([2 ^ 63, 2 ^ 62, 2 ^ 61] : List U64).take 2).map BitVec.toNat).toFinset = {2 ^ 63, 2 ^ 62} := by
      decide +kernel
    have e3 : ((([2 ^ 63, 2 ^ 62, 2 ^ 61] : List U64).take 3).map BitVec.toNat).toFinset = {2 ^ 63, 2 ^ 62, 2 ^ 61} := by
      decide +kernel
    rw [plusLines, show ([2 ^ 63, 2 ^ 62, 2 ^ 61] : List U64).length = 3 from rfl,
      show List.range 3 = [0, 1, 2] from rfl]
    simp only [List.map_cons, List.map_nil, Nat.zero_add, Nat.reduceAdd, e1, e2, e3, c1, c2, c3]
    decide +kernel
  have t0 : plusLines cfg ln 14 [2 ^ 63] = "1 1\n".toList := by
    have e1 : ((([2 ^ 63] : List U64).take 1).map BitVec.toNat).toFinset = {2 ^ 63} := by decide +kernel
    rw [plusLines, show ([2 ^ 63] : List U64).length = 1 from rfl, show List.range 1 = [0] from rfl]
    simp only [List.map_cons, List.map_nil, Nat.zero_add, e1, c1]
    decide +kernel
  exact ⟨t0, t1, t2⟩

/-- **C89**, a case of it: one file has the same hash twice, the other three different hashes.  Alone, the runs write
`1 1, 2 1` and `1 1, 2 2, 3 3`; together they may leave `1 1, 2 1, 3 3`. -/
theorem C89_race (hln : LnSpec ln) (hcfg : cfg.usizeBits = 64) (c : Serde.Codec U64) (hj : 2 ≤ jobs)
    {out f g b : Text} (hf : F (loc f) = some (generate [2 ^ 63, 2 ^ 63]))
    (hg : F (loc g) = some (generate [2 ^ 63, 2 ^ 62, 2 ^ 61]))
    (hfb : fileName f = some b) (hgb : fileName g = some b) :
    runPlus cfg ln c ords "14".toList (generate [2 ^ 63, 2 ^ 63]) = .ok "1 1\n2 1\n".toList ∧
    runPlus cfg ln c ords "14".toList (generate [2 ^ 63, 2 ^ 62, 2 ^ 61]) = .ok "1 1\n2 2\n3 3\n".toList ∧
    ∃ k s, Exec (fun i : Fin 2 => hashesTask loc (runPlus cfg ln c ords "14".toList) 14 out
        (if i = 0 then f else g)) jobs k (start F) s ∧ (∀ i, s.stage i = .finished) ∧
      s.files (loc (join out (hashesName 14 b))) = some "1 1\n2 1\n3 3\n".toList := by
  obtain ⟨-, t1, t2⟩ := example_lines (cfg := cfg) hln
  have g1 : generate [2 ^ 63, 2 ^ 63] = generate (([2 ^ 63, 2 ^ 63] : List U64).map BitVec.toNat) := by
    decide +kernel
  have g2 : generate [2 ^ 63, 2 ^ 62, 2 ^ 61] = generate (([2 ^ 63, 2 ^ 62, 2 ^ 61] : List U64).map BitVec.toNat) := by
    decide +kernel
  have h14 : (toString 14).toList = "14".toList := rfl
  rw [g1] at hf ⊢
  rw [g2] at hg ⊢
  refine ⟨?_, ?_, ?_⟩
  · rw [← h14, C78_plus_hashes hcfg c (by norm_num) (by norm_num) _ (by norm_num), ← t1]; rfl
  · rw [← h14, C78_plus_hashes hcfg c (by norm_num) (by norm_num) _ (by norm_num), ← t2]; rfl
  · obtain ⟨k, s, e1, e2, e3⟩ := C89_same_name (ln := ln) (ords := ords) (p := 14) (out := out) hcfg c (by norm_num) (by norm_num) hj (by norm_num)
      (by norm_num) hf hg hfb hgb (by simp) (by rw [t1, t2]; decide)
    rw [t1, t2] at e3
    exact ⟨k, s, e1, e2, e3⟩

/-- **C89**, a case of a gap: one hash in one file and three in the other, and the second text is written in two parts. -/
theorem C89_zeros (hln : LnSpec ln) (hcfg : cfg.usizeBits = 64) (c : Serde.Codec U64) (hj : 2 ≤ jobs)
    {out f g b : Text} (hf : F (loc f) = some (generate [2 ^ 63]))
    (hg : F (loc g) = some (generate [2 ^ 63, 2 ^ 62, 2 ^ 61]))
    (hfb : fileName f = some b) (hgb : fileName g = some b) :
    ∃ k s, Exec (fun i : Fin 2 => hashesTask loc (runPlus cfg ln c ords "14".toList) 14 out
        (if i = 0 then f else g)) jobs k (start F) s ∧ (∀ i, s.stage i = .finished) ∧
      s.files (loc (join out (hashesName 14 b))) = some "1 1\n\x00\x00\x00\x003 3\n".toList := by
  obtain ⟨t0, -, t2⟩ := example_lines (cfg := cfg) hln
  have g1 : generate [2 ^ 63] = generate (([2 ^ 63] : List U64).map BitVec.toNat) := by decide +kernel
  have g2 : generate [2 ^ 63, 2 ^ 62, 2 ^ 61] = generate (([2 ^ 63, 2 ^ 62, 2 ^ 61] : List U64).map BitVec.toNat) := by
    decide +kernel
  rw [g1] at hf
  rw [g2] at hg
  obtain ⟨k, s, e1, e2, e3⟩ := C89_gap (ln := ln) (ords := ords) (p := 14) (out := out) (y := "1 1\n2 2\n".toList)
    (z := "3 3\n".toList) hcfg c (by norm_num) (by norm_num) hj (by norm_num) (by norm_num) hf hg hfb hgb (by simp)
    (by rw [t2]; rfl) (by decide) (by rw [t0]; decide)
  rw [t0] at e3
  exact ⟨k, s, e1, e2, e3⟩

/-- Two files with different names, read and written by four threads. -/
example (hcfg : cfg.usizeBits = 64) (c : Serde.Codec U64) (H : Fin 2 → List U64) (hl : ∀ i, (H i).length < 2 ^ 64)
    {F : Files Text} (hin : ∀ i, F (![ "data/a.dat".toList, "data/b.dat".toList] i) = some (generate ((H i).map BitVec.toNat)))
    {s : Config Text 2}
    (h : Exec (fun i => hashesTask id (runPlus cfg ln c ords "14".toList) 14 "out".toList
      (![ "data/a.dat".toList, "data/b.dat".toList] i)) 4 k (start F) s) (hf : ∀ i, (s.stage i).over = true) :
    s.files "out/est-p14-a.dat".toList = some (plusLines cfg ln 14 (H 0)) ∧
    s.files "out/est-p14-b.dat".toList = some (plusLines cfg ln 14 (H 1)) := by
  have key := C89_plus_hashes (loc := id) (p := 14) hcfg c (fun _ => ords) (by norm_num) (by norm_num) hl hin (by decide +kernel)
    (fun a b e => join_inj e) (by
      intro i j b hb
      have : b = "a.dat".toList ∨ b = "b.dat".toList := by
        have hn : ∀ j, fileName (![ "data/a.dat".toList, "data/b.dat".toList] j) =
            some (![ "a.dat".toList, "b.dat".toList] j) := by decide +kernel
        obtain rfl := Option.some.inj ((hn j).symm.trans hb)
        fin_cases j
        · exact .inl rfl
        · exact .inr rfl
      rcases this with rfl | rfl <;> fin_cases i <;> decide +kernel) (by decide +kernel) h
  have hfin : ∀ i, s.stage i = .finished := by
    intro i
    have h1 := (key i).1
    have h2 := hf i
    cases hs : s.stage i <;> simp_all [Stage.over]
  exact ⟨(key 0).2.1 (hfin 0) "a.dat".toList (by decide +kernel),
    (key 1).2.1 (hfin 1) "b.dat".toList (by decide +kernel)⟩

end HLL
