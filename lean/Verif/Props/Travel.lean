import Verif.Proofs.Travel
import Verif.Props.HistoryPF

/-! # C65: sketches travel between processes -/

namespace HLL
open Spec

variable {I : Type} {jobs : List (Job I)}

/-- The machines of a system can run `count` on all sketches made by the jobs (as in `Supported`), and each
machine can read the builders written by each other machine. -/
def Compatible (jobs : List (Job I)) : Prop :=
  (∀ j ∈ jobs, 36 < j.machine.cfg.usizeBits ∨ (32 ≤ j.machine.cfg.usizeBits ∧
    ∀ j' ∈ jobs, ∀ p b, Op.new p b ∈ j'.ops → p ≤ 15)) ∧
  ∀ j ∈ jobs, ∀ j' ∈ jobs, ∀ j'' ∈ jobs, ∀ p b, Op.new p b ∈ j''.ops →
    j'.machine.codec.de (j.machine.codec.ser b) = some b

theorem Compatible.shared (h : Compatible jobs) {maxP : Nat} (hm : maxP ≤ 18) :
    (∀ m ∈ jobs.map Job.machine, 32 ≤ m.cfg.usizeBits) ∧
    ∀ j ∈ jobs, ∀ p b, Op.new p b ∈ j.ops →
      (∀ m ∈ jobs.map Job.machine, ∀ m' ∈ jobs.map Job.machine, m'.codec.de (m.codec.ser b) = some b) ∧
        (p ≤ maxP → ∀ m ∈ jobs.map Job.machine, 2 * p < m.cfg.usizeBits) := by
  refine ⟨?_, ?_⟩
  · intro m hm
    obtain ⟨j, hj, rfl⟩ := List.mem_map.1 hm
    rcases h.1 j hj with h | h <;> omega
  · intro j hj p b hb
    refine ⟨?_, ?_⟩
    · intro m hm m' hm'
      obtain ⟨k, hk, rfl⟩ := List.mem_map.1 hm
      obtain ⟨k', hk', rfl⟩ := List.mem_map.1 hm'
      exact h.2 k hk k' hk' j hj p b hb
    · intro hp m hm'
      obtain ⟨k, hk, rfl⟩ := List.mem_map.1 hm'
      rcases h.1 k hk with h | ⟨h1, h2⟩
      · omega
      · have := h2 j hj p b hb
        omega

/-- **C65 for `HyperLogLogPlus`.** In a system of processes that exchange serialised sketches, however
differently the processes were built (features, overflow checks, word size, version of the standard
library), no call panics, every written sketch is read back with its meaning, and all results are
those of the set machine. Only a missing file makes the system fail. -/
theorem C65_plus_travel (h : Compatible jobs) :
    travel Plus.site [] jobs =
      .ok (expectedJobs 64 18 (fun m => plusCount m.ln (Plus.biasOf m.cfg.search)) [] jobs) :=
  Plus.travel_ok (ms := jobs.map Job.machine) (fun j hj => List.mem_map_of_mem hj)
    (h.shared (maxP := 18) le_rfl).1 (h.shared le_rfl).2

/-- **C65 for `HyperLogLogPF`.** -/
theorem C65_pf_travel (h : Compatible jobs) :
    travel PF.site [] jobs = .ok (expectedJobs 32 16 (fun m => pfCount m.ln) [] jobs) :=
  PF.travel_ok (ms := jobs.map Job.machine) (fun j hj => List.mem_map_of_mem hj)
    (h.shared (maxP := 16) (by norm_num)).2

/-! ## Moving to another machine -/

theorem mapM_range {α : Type} (l : List α) :
    (List.range l.length).mapM (fun n => l[n]?) = some l := by
  have h : ∀ (pre l : List α), (List.range' pre.length l.length).mapM (fun n => (pre ++ l)[n]?) = some l := by
    intro pre l
    induction l generalizing pre with
    | nil => rfl
    | cons a l ih =>
      have := ih (pre ++ [a])
      simp only [List.length_append, List.length_singleton, List.append_assoc, List.singleton_append] at this
      rw [List.length_cons, List.range'_succ, List.mapM_cons, this]
      simp
  simpa [List.range_eq_range'] using h [] l

/-- A process that saves all its sketches, and one that loads them all and goes on. -/
def move (m m' : Machine I) (pre post : List (Op I)) (n : Nat) : List (Job I) :=
  [⟨m, [], pre⟩, ⟨m', List.range n, post⟩]

theorem expectedJobs_move (w maxP : Nat) (F : Machine I → Nat → Finset Nat → F64) (m m' : Machine I)
    (pre post : List (Op I)) :
    expectedJobs w maxP F [] (move m m' pre post (contents w maxP pre).length) =
      some [expected w maxP (F m) pre, expectedFrom w maxP (F m') (contents w maxP pre) post] := by
  rw [move, expectedJobs]
  simp only [List.mapM_nil, List.nil_append]
  change (expectedJobs w maxP F (contents w maxP pre) _).map _ = _
  rw [expectedJobs]
  simp only [mapM_range]
  rfl

theorem Compatible.supported {m m' : Machine I} {pre post : List (Op I)} {n : Nat}
    (h : Compatible (move m m' pre post n)) : Supported m'.cfg m'.codec (pre ++ post) := by
  refine ⟨?_, ?_⟩
  · rcases h.1 ⟨m', List.range n, post⟩ (by simp [move]) with h1 | ⟨h1, h2⟩
    · exact Or.inl h1
    · refine Or.inr ⟨h1, fun p b hb => ?_⟩
      rcases List.mem_append.1 hb with hb | hb
      · exact h2 ⟨m, [], pre⟩ (by simp [move]) p b hb
      · exact h2 ⟨m', List.range n, post⟩ (by simp [move]) p b hb
  · intro _ p b hb
    rcases List.mem_append.1 hb with hb | hb
    · exact h.2 ⟨m', List.range n, post⟩ (by simp [move]) ⟨m', List.range n, post⟩ (by simp [move])
        ⟨m, [], pre⟩ (by simp [move]) p b hb
    · exact h.2 ⟨m', List.range n, post⟩ (by simp [move]) ⟨m', List.range n, post⟩ (by simp [move])
        ⟨m', List.range n, post⟩ (by simp [move]) p b hb

/-- **C65.** If all sketches of a process are saved and loaded on another machine, they behave there
exactly as if that machine had executed everything itself. -/
theorem C65_plus_move {m m' : Machine I} {pre post : List (Op I)}
    (h : Compatible (move m m' pre post (contents 64 18 pre).length)) :
    ∃ os os', travel Plus.site [] (move m m' pre post (contents 64 18 pre).length) = .ok (some [os, os']) ∧
      ∀ ords, later (Plus.api m'.cfg m'.ln m'.codec) ords pre post = .ok os' := by
  refine ⟨_, _, by rw [C65_plus_travel h, expectedJobs_move], fun ords => ?_⟩
  rw [(Plus.implements m'.cfg m'.ln m'.codec).later_ok ords h.supported]

/-- **C65.** The same for `HyperLogLogPF`. -/
theorem C65_pf_move {m m' : Machine I} {pre post : List (Op I)}
    (h : Compatible (move m m' pre post (contents 32 16 pre).length)) :
    ∃ os os', travel PF.site [] (move m m' pre post (contents 32 16 pre).length) = .ok (some [os, os']) ∧
      ∀ ords, later (PF.api m'.cfg m'.ln m'.codec) ords pre post = .ok os' := by
  refine ⟨_, _, by rw [C65_pf_travel h, expectedJobs_move], fun ords => ?_⟩
  rw [(PF.implements m'.cfg m'.ln m'.codec).later_ok ords h.supported]

/-! ## Counting with several workers -/

/-- Workers that each put their share of the values into a sketch of their own, and a coordinator that
merges all sketches into the first one and counts. -/
def distributed (p : Nat) (b : I → U64) (workers : List (Machine I × List I)) (coord : Machine I) :
    List (Job I) :=
  workers.map (fun x => ⟨x.1, [], .new p b :: x.2.map (.insert .insert 0)⟩) ++
    [⟨coord, List.range workers.length,
      (List.range (workers.length - 1)).map (fun n => .merge 0 (n + 1)) ++ [.count 0]⟩]

/-- One machine that inserts all values into one sketch. -/
def together (p : Nat) (b : I → U64) (workers : List (Machine I × List I)) : List (Op I) :=
  .new p b :: (workers.flatMap Prod.snd).map (.insert .insert 0)

section
variable {w maxP p : Nat} {F : Machine I → Nat → Finset Nat → F64} {b : I → U64}

/-- The meaning of a sketch with the given values. -/
def filled (w p : Nat) (b : I → U64) (vs : List I) : Abs I :=
  ⟨b, p, (vs.map fun v => (b v).toNat % 2 ^ w).toFinset⟩

theorem contents_filled (hp1 : 4 ≤ p) (hp2 : p ≤ maxP) (vs : List I) :
    contents w maxP (.new p b :: vs.map (.insert .insert 0)) = [filled w p b vs] := by
  change contentsFrom w maxP (effect w maxP [] (.new p b)) _ = _
  simp only [effect, if_pos (And.intro hp1 hp2), List.nil_append]
  rw [contentsFrom_inserts w maxP .insert 0 vs _ ⟨b, p, ∅⟩ rfl]
  simp [filled]

theorem expectedJobs_workers (hp1 : 4 ≤ p) (hp2 : p ≤ maxP) (last : List (Job I)) :
    ∀ (workers : List (Machine I × List I)) (files : List (Abs I)),
    ∃ oss : List (List Out), oss.length = workers.length ∧
      expectedJobs w maxP F files
        (workers.map (fun x => ⟨x.1, [], .new p b :: x.2.map (.insert .insert 0)⟩) ++ last) =
      (expectedJobs w maxP F (files ++ workers.map fun x => filled w p b x.2) last).map fun r => oss ++ r
  | [], files => ⟨[], rfl, by simp⟩
  | x :: ws, files => by
    obtain ⟨oss, h1, h2⟩ := expectedJobs_workers hp1 hp2 last ws (files ++ [filled w p b x.2])
    refine ⟨expected w maxP (F x.1) (.new p b :: x.2.map (.insert .insert 0)) :: oss, by simp [h1], ?_⟩
    rw [List.map_cons, List.cons_append, expectedJobs]
    simp only [List.mapM_nil]
    change (expectedJobs w maxP F (files ++ contents w maxP _) _).map _ = _
    rw [contents_filled hp1 hp2, h2, Option.map_map, List.map_cons, List.append_assoc, List.singleton_append]
    rfl

/-- Merging all sketches of a store into the first one. -/
theorem contentsFrom_merges (w maxP : Nat) : ∀ (k : Nat) (a : Abs I) (l : List (Abs I)), k ≤ l.length →
    (∀ x ∈ l, x.p = a.p) →
    contentsFrom w maxP (a :: l) ((List.range k).map fun n => .merge 0 (n + 1)) =
      { a with S := (l.take k).foldl (fun S x => S ∪ x.S) a.S } :: l
  | 0, a, l, _, _ => by simp [contentsFrom]
  | k + 1, a, l, hk, hl => by
    rw [List.range_succ, List.map_append, contentsFrom_append, contentsFrom_merges w maxP k a l (by omega) hl]
    have hx : l[k]? = some l[k] := List.getElem?_eq_getElem (by omega)
    simp only [List.map_cons, List.map_nil, contentsFrom, List.foldl_cons, List.foldl_nil, effect,
      List.getElem?_cons_zero, List.getElem?_cons_succ, hx]
    rw [if_pos (hl _ (List.getElem_mem _)).symm, List.set_cons_zero]
    rw [List.take_add_one, hx, List.foldl_append]
    rfl

theorem foldl_filled (x0 : List I) : ∀ (ws : List (Machine I × List I)) (S : Finset Nat),
    (ws.map fun x => filled w p b x.2).foldl (fun S x => S ∪ x.S) S =
      S ∪ ((ws.flatMap Prod.snd).map fun v => (b v).toNat % 2 ^ w).toFinset
  | [], S => by simp
  | x :: ws, S => by
    rw [List.map_cons, List.foldl_cons, foldl_filled x0 ws, List.flatMap_cons, List.map_append,
      List.toFinset_append, Finset.union_assoc]
    rfl

theorem expectedFrom_merges (w maxP : Nat) (F : Nat → Finset Nat → F64) (st : List (Abs I))
    (pre : List (Op I)) {a : Abs I} (h : (contentsFrom w maxP st pre)[0]? = some a) :
    (expectedFrom w maxP F st (pre ++ [.count 0])).getLast? = some (.count (F a.p a.S)) := by
  rw [expectedFrom_append, List.getLast?_append]
  simp [expectedFrom, observe, h]

theorem expectedJobs_distributed (hp1 : 4 ≤ p) (hp2 : p ≤ maxP) {workers : List (Machine I × List I)}
    (hw : workers ≠ []) (coord : Machine I) :
    ∃ oss : List (List Out), oss.length = workers.length ∧ ∃ os : List Out,
      expectedJobs w maxP F [] (distributed p b workers coord) = some (oss ++ [os]) ∧
      os.getLast? = some (.count (F coord p (filled w p b (workers.flatMap Prod.snd)).S)) := by
  obtain ⟨oss, h1, h2⟩ := expectedJobs_workers (w := w) (F := F) (b := b) hp1 hp2
    [⟨coord, List.range workers.length,
      (List.range (workers.length - 1)).map (fun n => .merge 0 (n + 1)) ++ [.count 0]⟩] workers []
  refine ⟨oss, h1, expectedFrom w maxP (F coord) (workers.map fun x => filled w p b x.2)
    ((List.range (workers.length - 1)).map (fun n => .merge 0 (n + 1)) ++ [.count 0]), ?_, ?_⟩
  · have hr := mapM_range (workers.map fun x => filled w p b x.2)
    rw [List.length_map] at hr
    rw [distributed, h2, expectedJobs, List.nil_append]
    simp only [hr]
    rfl
  · obtain ⟨x, ws, rfl⟩ := List.exists_cons_of_ne_nil hw
    rw [List.map_cons]
    refine expectedFrom_merges w maxP _ _ _ (a := filled w p b (List.flatMap Prod.snd (x :: ws))) ?_
    rw [contentsFrom_merges w maxP _ _ _ (by simp) (by
      intro y hy
      obtain ⟨z, _, rfl⟩ := List.mem_map.1 hy
      rfl)]
    rw [List.getElem?_cons_zero]
    simp only [List.length_map, List.length_cons, Nat.add_sub_cancel]
    rw [List.take_of_length_le (by simp), foldl_filled x.2]
    simp [filled]
end

/-- **C65, counting with several workers.** The values are spread over workers (in any way, with or without
overlap) on different machines; each fills a sketch and saves it, and a coordinator loads and merges
all sketches. Its `count` is what it would have been had the coordinator inserted all values into one sketch itself. -/
theorem C65_plus_distributed {p : Nat} (hp1 : 4 ≤ p) (hp2 : p ≤ 18) {b : I → U64}
    {workers : List (Machine I × List I)} (hw : workers ≠ []) {coord : Machine I}
    (h : Compatible (distributed p b workers coord)) (ords : Nat → IterOrder × IterOrder) :
    ∃ (oss : List (List Out)) (os : List Out) (x : F64),
      travel Plus.site [] (distributed p b workers coord) = .ok (some (oss ++ [os])) ∧
      oss.length = workers.length ∧ os.getLast? = some (.count x) ∧
      later (Plus.api coord.cfg coord.ln coord.codec) ords (together p b workers) [.count 0] =
        .ok [.count x] := by
  obtain ⟨oss, h1, os, h2, h3⟩ := expectedJobs_distributed (w := 64) (maxP := 18) (b := b)
    (F := fun m => plusCount m.ln (Plus.biasOf m.cfg.search)) hp1 hp2 hw coord
  refine ⟨oss, os, _, by rw [C65_plus_travel h, h2], h1, h3, ?_⟩
  refine (Plus.implements _ _ _).count_val (s := filled 64 p b (workers.flatMap Prod.snd)) ords ?_ ?_
  · obtain ⟨x, ws, rfl⟩ := List.exists_cons_of_ne_nil hw
    have hc : (⟨coord, List.range (x :: ws).length,
      (List.range ((x :: ws).length - 1)).map (fun n => .merge 0 (n + 1)) ++ [.count 0]⟩ : Job I) ∈
        distributed p b (x :: ws) coord := by simp [distributed]
    have hn : (⟨x.1, [], .new p b :: x.2.map (.insert .insert 0)⟩ : Job I) ∈
        distributed p b (x :: ws) coord := by simp [distributed]
    refine ⟨?_, fun ⟨i, hi⟩ => by simp [together] at hi⟩
    rcases h.1 _ hc with h1 | ⟨h1, h2⟩
    · exact Or.inl h1
    · refine Or.inr ⟨h1, fun p' b' hb => ?_⟩
      obtain ⟨rfl, rfl⟩ : p' = p ∧ b' = b := by simpa [together] using hb
      exact h2 _ hn p' b' (by simp)
  · rw [together, contents_filled hp1 hp2]
    rfl

/-- **C65, counting with several workers**, for `HyperLogLogPF`. -/
theorem C65_pf_distributed {p : Nat} (hp1 : 4 ≤ p) (hp2 : p ≤ 16) {b : I → U64}
    {workers : List (Machine I × List I)} (hw : workers ≠ []) {coord : Machine I}
    (h : Compatible (distributed p b workers coord)) (ords : Nat → IterOrder × IterOrder) :
    ∃ (oss : List (List Out)) (os : List Out) (x : F64),
      travel PF.site [] (distributed p b workers coord) = .ok (some (oss ++ [os])) ∧
      oss.length = workers.length ∧ os.getLast? = some (.count x) ∧
      later (PF.api coord.cfg coord.ln coord.codec) ords (together p b workers) [.count 0] =
        .ok [.count x] := by
  obtain ⟨oss, h1, os, h2, h3⟩ := expectedJobs_distributed (w := 32) (maxP := 16) (b := b)
    (F := fun m => pfCount m.ln) hp1 hp2 hw coord
  refine ⟨oss, os, _, by rw [C65_pf_travel h, h2], h1, h3, ?_⟩
  refine (PF.implements _ _ _).count_val (s := filled 32 p b (workers.flatMap Prod.snd)) ords ?_ ?_
  · obtain ⟨x, ws, rfl⟩ := List.exists_cons_of_ne_nil hw
    have hc : (⟨coord, List.range (x :: ws).length,
      (List.range ((x :: ws).length - 1)).map (fun n => .merge 0 (n + 1)) ++ [.count 0]⟩ : Job I) ∈
        distributed p b (x :: ws) coord := by simp [distributed]
    have hn : (⟨x.1, [], .new p b :: x.2.map (.insert .insert 0)⟩ : Job I) ∈
        distributed p b (x :: ws) coord := by simp [distributed]
    refine ⟨?_, fun ⟨i, hi⟩ => by simp [together] at hi⟩
    rcases h.1 _ hc with h1 | ⟨h1, h2⟩
    · exact Or.inl h1
    · refine Or.inr ⟨h1, fun p' b' hb => ?_⟩
      obtain ⟨rfl, rfl⟩ : p' = p ∧ b' = b := by simpa [together] using hb
      exact h2 _ hn p' b' (by simp)
  · rw [together, contents_filled hp1 hp2]
    rfl

/-! ## A concrete system -/

/-- A 64-bit debug build, a 32-bit release build with the lookup table, and a build with the other search. -/
def demoMachines (ln : F64 → F64) (ords : Nat → IterOrder × IterOrder) (hash : Nat → U64) : List (Machine Nat) :=
  let codec : Serde.Codec Nat := ⟨fun _ => .unit, fun _ => some hash⟩
  let mk (cfg : Cfg) : Machine Nat := ⟨cfg, ln, codec, ords, fun n => (ords n).1⟩
  [mk Cfg.debug64, mk { Cfg.debug64 with usizeBits := 32, overflowChecks := false, constLoop := true },
    mk { Cfg.debug64 with search := .branchless, overflowChecks := false }]

example (ln : F64 → F64) (ords : Nat → IterOrder × IterOrder) (hash : Nat → U64) :
    ∃ m1 m2 m3, demoMachines ln ords hash = [m1, m2, m3] ∧
      Compatible (distributed 12 hash [(m1, [1, 2, 3]), (m2, [3, 4])] m3) ∧
      Compatible (move m1 m2 [.new 5 hash, .insert .insert 0 7, .clone 0] [.insert .add 1 8, .merge 0 1, .count 0] 2) := by
  refine ⟨_, _, _, rfl, ⟨?_, ?_⟩, ⟨?_, ?_⟩⟩
  · intro j hj
    right
    refine ⟨?_, ?_⟩
    · simp [distributed] at hj
      rcases hj with rfl | rfl | rfl <;> simp [Cfg.debug64]
    · intro j' hj' p b hb
      simp [distributed] at hj'
      rcases hj' with rfl | rfl | rfl <;> simp at hb
      · omega
      · omega
  · intro j hj j' hj' j'' hj'' p b hb
    simp [distributed] at hj hj' hj''
    have : b = hash := by
      rcases hj'' with rfl | rfl | rfl <;> simp at hb
      · exact hb.2
      · exact hb.2
    subst this
    rcases hj' with rfl | rfl | rfl <;> rfl
  · intro j hj
    right
    refine ⟨?_, ?_⟩
    · simp [move] at hj
      rcases hj with rfl | rfl <;> simp [Cfg.debug64]
    · intro j' hj' p b hb
      simp [move] at hj'
      rcases hj' with rfl | rfl <;> simp at hb
      omega
  · intro j hj j' hj' j'' hj'' p b hb
    simp [move] at hj hj' hj''
    have : b = hash := by
      rcases hj'' with rfl | rfl <;> simp at hb
      exact hb.2
    subst this
    rcases hj' with rfl | rfl <;> rfl

end HLL
