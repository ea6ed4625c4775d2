import Verif.Props.Numeric

/-!
# C61: the work of a run of insertions into a `HyperLogLogPlus`

A sparse sketch collects codes in a temporary set and now and then merges them into its list of
codes, which takes time proportional to the length of the list.
-/

namespace HLL
open Spec

variable {I : Type} {cfg : Cfg} {ln : F64 → F64} {c : Serde.Codec I}
  {ords : Nat → IterOrder × IterOrder} {ops : List (Op I)} {i : Nat}

/-- The work of inserting values one after the other: the final sketch, the number of insertions that
merged the temporary set into the list, and the number of codes these merges had to look at.  An
insertion into a sparse sketch leaves its code in the temporary set unless it merges. -/
def insertWork (cfg : Cfg) (ord : Nat → IterOrder) : Nat → Plus I → List I → R (Plus I × Nat × Nat)
  | _, s, [] => pure (s, 0, 0)
  | k, s, v :: vs => do
    let s' ← Plus.insert cfg (ord k) s v
    let (e, f, w) ← insertWork cfg ord (k + 1) s' vs
    if s.isSparse = true ∧ s'.tmpset = [] then
      pure (e, f + 1, w + (s.sparse.count + (s.tmpset.length + 1)))
    else pure (e, f, w)

theorem mergeSparse_tmpset {cfg : Cfg} {ord : IterOrder} {s s' : Plus I}
    (h : Plus.mergeSparse cfg ord s = .ok s') : s'.tmpset = [] := by
  rw [Plus.mergeSparse] at h
  obtain ⟨_, _, h⟩ := bind_eq_ok.1 h
  obtain ⟨buf, _, h⟩ := bind_eq_ok.1 h
  simp only at h
  split at h
  · rw [Plus.sparseToNormal] at h
    obtain ⟨_, _, h⟩ := bind_eq_ok.1 h
    obtain ⟨_, _, h⟩ := bind_eq_ok.1 h
    obtain ⟨_, _, h⟩ := bind_eq_ok.1 h
    cases h
    rfl
  · cases h
    rfl

theorem insertHash_stays_dense {cfg : Cfg} {ord : IterOrder} {s s' : Plus I} {x : U64} {r : Registers}
    (hr : s.registers = some r) (h : Plus.insertHash cfg ord s x = .ok s') :
    s'.registers ≠ none := by
  rw [Plus.insertHash, hr] at h
  simp only at h
  obtain ⟨_, _, h⟩ := bind_eq_ok.1 h
  obtain ⟨_, _, h⟩ := bind_eq_ok.1 h
  obtain ⟨_, _, h⟩ := bind_eq_ok.1 h
  obtain ⟨_, _, h⟩ := bind_eq_ok.1 h
  obtain ⟨_, _, h⟩ := bind_eq_ok.1 h
  obtain ⟨_, _, h⟩ := bind_eq_ok.1 h
  cases h
  simp

/-- One insertion. -/
theorem insert_work (cfg : Cfg) (hcfg : 32 ≤ cfg.usizeBits) (ord : IterOrder) {p : Nat}
    {s : Plus I} {S : Finset Nat} (h : Plus.Rep p s S) (v : I) :
    ∃ s', Plus.insert cfg ord s v = .ok s' ∧ (∃ S', Plus.Rep p s' S') ∧
      (s.isSparse = true → s.sparse.count ≤ capacity p ∧ s.tmpset.length ≤ capacity p / 100) ∧
      (s.isSparse = true → s'.tmpset ≠ [] → s'.tmpset.length ≤ s.tmpset.length + 1) ∧
      (s.isSparse = true → s'.tmpset = [] → capacity p / 100 + 1 ≤ s.tmpset.length + 1) ∧
      (s.isSparse = false → s.tmpset = [] ∧ s'.isSparse = false ∧ s'.tmpset = []) := by
  obtain ⟨s', h1, h2, _⟩ := Plus.insertHash_ok cfg hcfg ord h (s.builder v)
  refine ⟨s', h1, ⟨_, h2⟩, ?_⟩
  obtain ⟨hb, ⟨L, hs, hl, ht⟩ | ⟨r, hd⟩⟩ := h
  · have hsp : s.isSparse = true := by simp [Plus.isSparse, hs.regs]
    obtain ⟨code, hc, _⟩ := Plus.encodeHash_ok cfg hb.hp1 hb.hp2 (s.builder v)
    have hlen := Plus.length_hashSetInsert s.tmpset code
    rw [Plus.insertHash_none cfg ord _ hs.regs, hb.prec, hc, ok_bind, Plus.maybeMergeSparse] at h1
    obtain ⟨hb1, hb2⟩ := Plus.pow_bounds cfg hcfg hb.hp2
    have hcap := capacity_le hb.hp2
    have hcp := Plus.capacity_pos hb.hp1
    rw [mulUsize_ok cfg (by show (hashSetInsert s.tmpset code).length * 100 < _; omega), ok_bind] at h1
    simp only [hb.counts] at h1
    have hcount : s.sparse.count ≤ capacity p := by
      rw [hs.enc.count_eq]
      exact (Plus.length_le_len hs.enc).trans hl
    refine ⟨fun _ => ⟨hcount, by omega⟩, fun _ hne => ?_, fun _ he => ?_, fun h => by simp [hsp] at h⟩
    · by_cases hg : (hashSetInsert s.tmpset code).length * 100 > capacity p
      · rw [if_pos hg] at h1
        exact absurd (mergeSparse_tmpset h1) hne
      · rw [if_neg hg] at h1
        cases h1
        exact hlen
    · by_cases hg : (hashSetInsert s.tmpset code).length * 100 > capacity p
      · omega
      · rw [if_neg hg] at h1
        cases h1
        have : code ∈ hashSetInsert s.tmpset code := Plus.mem_hashSetInsert.2 (Or.inl rfl)
        simp only at he
        rw [he] at this
        simp at this
  · have hsp : s.isSparse = false := by simp [Plus.isSparse, hd.regs]
    refine ⟨fun h => by simp [hsp] at h, fun h => by simp [hsp] at h, fun h => by simp [hsp] at h,
      fun _ => ?_⟩
    obtain ⟨_, ⟨L, hs, _, _⟩ | ⟨r', hd'⟩⟩ := h2
    · exact absurd hs.regs (insertHash_stays_dense hd.regs h1)
    · exact ⟨hd.tmp, by simp [Plus.isSparse, hd'.regs], hd'.tmp⟩

theorem insertWork_ok (cfg : Cfg) (hcfg : 32 ≤ cfg.usizeBits) (ord : Nat → IterOrder) {p : Nat} :
    ∀ (vs : List I) (k : Nat) (s : Plus I), (∃ S, Plus.Rep p s S) →
    ∃ e f w, insertWork cfg ord k s vs = .ok (e, f, w) ∧
      f * (capacity p / 100 + 1) + e.tmpset.length ≤ vs.length + s.tmpset.length ∧
      w ≤ f * (capacity p + (capacity p / 100 + 1)) ∧ (s.isSparse = false → e.isSparse = false ∧ f = 0)
  | [], k, s, _ => ⟨s, 0, 0, rfl, by simp, by simp, fun h => ⟨h, rfl⟩⟩
  | v :: vs, k, s, ⟨S, h⟩ => by
    obtain ⟨s', h1, h2, h3, h4, h5, h6⟩ := insert_work cfg hcfg (ord k) h v
    obtain ⟨e, f, w, k1, k2, k3, k4⟩ := insertWork_ok cfg hcfg ord vs (k + 1) s' h2
    rw [insertWork, h1, ok_bind, k1, ok_bind]
    simp only [List.length_cons]
    by_cases hf : s.isSparse = true ∧ s'.tmpset = []
    · rw [if_pos hf]
      have a1 := h3 hf.1
      have a2 := h5 hf.1 hf.2
      rw [hf.2, List.length_nil] at k2
      refine ⟨e, f + 1, _, rfl, ?_, ?_, fun h => by rw [hf.1] at h; cases h⟩
      · rw [Nat.add_mul]; omega
      · rw [Nat.add_mul]; omega
    · rw [if_neg hf]
      refine ⟨e, f, w, rfl, ?_, k3, fun hd => k4 (h6 hd).2.1⟩
      rcases Bool.eq_false_or_eq_true s.isSparse with hs | hs
      · have := h4 hs fun ht => hf ⟨hs, ht⟩
        omega
      · obtain ⟨_, _, b3⟩ := h6 hs
        rw [b3, List.length_nil] at k2
        omega

/-- **C61.** Insert `n` values into any sketch a program can reach.  No insertion panics.  The
number of insertions that merge the temporary set into the list of codes, times `⌊4·2^p/500⌋ + 1`, is at
most `n` plus the number of codes that were in the temporary set; together they look at no more than
101 codes for each of these values.  A dense sketch stays dense and never merges. -/
theorem C61_insert_work (h : Supported cfg c ops) {s : Plus I} {a : Abs I}
    (hr : ReachPlus cfg ln c ords ops i s a) (ord : Nat → IterOrder) (vs : List I) :
    ∃ e merges looked, insertWork cfg ord 0 s vs = .ok (e, merges, looked) ∧
      merges * (4 * 2 ^ s.precision / 500 + 1) ≤ vs.length + s.tmpset.length ∧
      looked ≤ 101 * (vs.length + s.tmpset.length) ∧
      (s.isSparse = false → e.isSparse = false ∧ merges = 0) := by
  obtain ⟨h1, _, _⟩ := hr.means h
  obtain ⟨e, f, w, k1, k2, k3, k4⟩ := insertWork_ok cfg h.bits ord vs 0 s ⟨_, h1⟩
  have e1 : 4 * 2 ^ s.precision / 500 = capacity a.p / 100 := by
    rw [h1.1.prec, capacity, Nat.div_div_eq_div_mul]
  refine ⟨e, f, w, k1, by rw [e1]; omega, ?_, k4⟩
  have h5 : capacity a.p + (capacity a.p / 100 + 1) ≤ 101 * (capacity a.p / 100 + 1) := by omega
  calc w ≤ f * (capacity a.p + (capacity a.p / 100 + 1)) := k3
    _ ≤ f * (101 * (capacity a.p / 100 + 1)) := Nat.mul_le_mul_left _ h5
    _ = 101 * (f * (capacity a.p / 100 + 1)) := by ring
    _ ≤ _ := by omega

/-- At precision 4 the temporary set holds no codes, so every insertion merges: three insertions merge
three times and look at 1 + 2 + 3 codes. -/
example : (match Plus.new (I := Nat) Cfg.debug64 4 (fun v => BitVec.ofNat 64 (v * 2 ^ 40)) with
    | .ok (.ok s) => (insertWork Cfg.debug64 (fun _ => IterOrder.id) 0 s [1, 2, 3]).toOption.map (·.2)
    | _ => none) = some (3, 6) := by
  decide +kernel

end HLL
