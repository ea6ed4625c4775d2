import Verif.Props.State
import Verif.Proofs.Count

/-! # The stored state is canonical: C43 -/

namespace HLL
open Spec

variable {I : Type} {cfg cfg' : Cfg} {ln ln' : F64 → F64} {c c' : Serde.Codec I}
  {ords ords' : Nat → IterOrder × IterOrder} {ops ops' : List (Op I)} {i i' : Nat}

theorem DifIntVec.Enc.unique {d d' : DifIntVec} {L : List U32} (h : Enc d L) (h' : Enc d' L) :
    d = d' := by
  obtain ⟨a, b, e⟩ := d
  obtain ⟨a', b', e'⟩ := d'
  have h1 := h.buf_eq.trans h'.buf_eq.symm
  have h2 := h.count_eq.trans h'.count_eq.symm
  have h3 := h.last_eq.trans h'.last_eq.symm
  simp only at h1 h2 h3
  subst h1 h2 h3
  rfl

/-- A flushed sketch is determined by its builder, its precision and the codes of its set. -/
theorem Plus.Flushed.unique {p : Nat} {s s' : Plus I} {S : Finset Nat} (h : Flushed p s S)
    (h' : Flushed p s' S) (hb : s.builder = s'.builder) : s = s' := by
  obtain ⟨h0, h⟩ := h
  obtain ⟨h0', h'⟩ := h'
  have hp := h0.prec.trans h0'.prec.symm
  have hc := h0.counts.trans h0'.counts.symm
  obtain ⟨b, q, n, t, sp, r⟩ := s
  obtain ⟨b', q', n', t', sp', r'⟩ := s'
  simp only at hp hc hb
  subst hp hc hb
  rcases h with ⟨L, h1, ht, hf⟩ | ⟨R, h1⟩ <;> rcases h' with ⟨L', h1', ht', hf'⟩ | ⟨R', h1'⟩
  · have e1 := h1.regs
    have e2 := h1'.regs
    simp only at e1 e2 ht ht'
    subst e1 e2 ht ht'
    have hL : L = L' := by
      have s1 := eq_sort_of_pairwise h1.sorted.map (C := codes p S) (by intro n; rw [h1.mem]; simp)
      have s2 := eq_sort_of_pairwise h1'.sorted.map (C := codes p S) (by intro n; rw [h1'.mem]; simp)
      exact List.map_injective_iff.2 (fun x y h => BitVec.eq_of_toNat_eq h) (s1.trans s2.symm)
    subst hL
    have := h1.enc.unique h1'.enc
    simp only at this
    rw [this]
  · exact absurd hf h1'.big
  · exact absurd hf' h1.big
  · have e1 := h1.regs
    have e2 := h1'.regs
    have e3 := h1.tmp
    have e4 := h1'.tmp
    have e5 := h1.sparse
    have e6 := h1'.sparse
    simp only at e1 e2 e3 e4 e5 e6
    subst e1 e2 e3 e4 e5 e6
    rw [h1.rep.unique (Or.inr rfl) h1'.rep]

/-- **C43.** Two `HyperLogLogPlus` sketches with the same builder and precision that have seen the
same set of hashes are the same value, field by field, once `count` has been called on both:
whatever calls led to them, in whatever order, on whatever target, and whatever the iteration
orders of the hash sets were. In particular they serialise identically. -/
theorem C43_plus_canonical {s s' : Plus I} {a a' : Abs I} (h : Supported cfg c ops)
    (h' : Supported cfg' c' ops') (hr : ReachPlus cfg ln c ords ops i s a)
    (hr' : ReachPlus cfg' ln' c' ords' ops' i' s' a') (hb : a.builder = a'.builder)
    (hp : a.p = a'.p) (hS : a.S = a'.S) (o o' : IterOrder) :
    ∃ t x x', Plus.count cfg ln o s = .ok (t, x) ∧ Plus.count cfg' ln' o' s' = .ok (t, x') ∧
      ∀ (e : Serde.Codec I) (q q' : IterOrder), Serde.serPlus e q t = Serde.serPlus e q' t := by
  obtain ⟨h1, h2, h3⟩ := hr.means h
  obtain ⟨h1', h2', h3'⟩ := hr'.means h'
  obtain ⟨t, e1, e2, e3⟩ := Plus.count_ok cfg h.bits ln o (fun _ => h3) h1
  obtain ⟨t', e1', e2', e3'⟩ := Plus.count_ok cfg' h'.bits ln' o' (fun _ => h3') h1'
  rw [← hp, ← hS] at e2'
  have : t = t' := e2.unique e2' (by rw [e3, e3', h2, h2', hb])
  subst this
  refine ⟨t, _, _, e1, e1', ?_⟩
  intro e q q'
  have ht : t.tmpset = [] := by
    rcases e2.2 with ⟨_, _, ht, _⟩ | ⟨_, hd⟩
    exacts [ht, hd.tmp]
  have hq : ∀ q : IterOrder, q.apply [] = [] := fun q => List.Perm.eq_nil (q.perm [])
  simp only [Serde.serPlus, ht, hq]

/-- **C43.** For `HyperLogLogPF` this holds at any moment, without calling `count`. -/
theorem C43_pf_canonical {s s' : PF I} {a a' : Abs I} (h : Supported cfg c ops)
    (h' : Supported cfg' c' ops') (hr : ReachPF cfg ln c ords ops i s a)
    (hr' : ReachPF cfg' ln' c' ords' ops' i' s' a') (hb : a.builder = a'.builder)
    (hp : a.p = a'.p) (hS : a.S = a'.S) : s = s' := by
  obtain ⟨h1, h2, _⟩ := hr.means h
  obtain ⟨h1', h2', _⟩ := hr'.means h'
  rw [← hp, ← hS] at h1'
  have hb' : s.builder = s'.builder := by rw [h2, h2', hb]
  have hp' := h1.prec.trans h1'.prec.symm
  have hc' := h1.count.trans h1'.count.symm
  have hreg := h1.rep.unique (Or.inl rfl) h1'.rep
  cases s; cases s'
  simp only at hb' hp' hc' hreg
  subst hb' hp' hc' hreg
  rfl

/-- **C43.** The same for dense `HyperLogLogPlus` sketches. -/
theorem C43_plus_dense {s s' : Plus I} {a a' : Abs I} (h : Supported cfg c ops)
    (h' : Supported cfg' c' ops') (hr : ReachPlus cfg ln c ords ops i s a)
    (hr' : ReachPlus cfg' ln' c' ords' ops' i' s' a') (hb : a.builder = a'.builder)
    (hp : a.p = a'.p) (hS : a.S = a'.S) {r r' : Registers} (hd : s.registers = some r)
    (hd' : s'.registers = some r') : s = s' := by
  obtain ⟨h1, h2, _⟩ := hr.means h
  obtain ⟨h1', h2', _⟩ := hr'.means h'
  rw [← hp, ← hS] at h1'
  have key : ∀ {t : Plus I} {r : Registers}, t.registers = some r → Plus.Rep a.p t a.S →
      Plus.Flushed a.p t a.S := by
    rintro t r ht ⟨hb, ⟨L, hs, _⟩ | hd⟩
    · rw [hs.regs] at ht; cases ht
    · exact ⟨hb, Or.inr hd⟩
  exact (key hd h1).unique (key hd' h1') (by rw [h2, h2', hb])

/-- Two different programs giving one set, for either kind of sketch. -/
def twoWays : List (Op Nat) × List (Op Nat) :=
  ([.new 4 (fun v => BitVec.ofNat 64 v), .insert .insert 0 7, .insert .insert 0 9],
   [.new 5 (fun _ => 0), .new 4 (fun v => BitVec.ofNat 64 v), .insert .add 1 9, .count 1, .clone 1,
    .insert .insertAny 1 7, .merge 1 2, .insert .insert 1 7])

/-- The hypotheses of `C43_plus_canonical` and `C43_pf_canonical` are met by `twoWays`. -/
example : ((∃ s a s' a', ReachPlus Cfg.debug64 ln (noCodec Nat) ords twoWays.1 0 s a ∧
      ReachPlus { Cfg.debug64 with usizeBits := 32, search := .branchless } ln' (noCodec Nat) ords' twoWays.2 1 s' a' ∧
      a.builder = a'.builder ∧ a.p = a'.p ∧ a.S = a'.S ∧ a.S.card = 2) ∧
    (∃ s a s' a', ReachPF Cfg.debug64 ln (noCodec Nat) ords twoWays.1 0 s a ∧
      ReachPF { Cfg.debug64 with usizeBits := 32, search := .branchless } ln' (noCodec Nat) ords' twoWays.2 1 s' a' ∧
      a.builder = a'.builder ∧ a.p = a'.p ∧ a.S = a'.S ∧ a.S.card = 2)) ∧
    Supported Cfg.debug64 (noCodec Nat) twoWays.1 ∧
    Supported { Cfg.debug64 with usizeBits := 32, search := .branchless } (noCodec Nat) twoWays.2 := by
  have h1 : Supported Cfg.debug64 (noCodec Nat) twoWays.1 := supported64 rfl _ (by simp [twoWays])
  have h2 : Supported { Cfg.debug64 with usizeBits := 32, search := .branchless } (noCodec Nat) twoWays.2 :=
    ⟨Or.inr ⟨by decide, by
      intro p b hb
      simp [twoWays] at hb
      rcases hb with ⟨rfl, _⟩ | ⟨rfl, _⟩ <;> decide⟩, by simp [twoWays]⟩
  refine ⟨⟨?_, ?_⟩, h1, h2⟩
  · obtain ⟨s, hs⟩ := reachPlus_exists (ln := ln) (ords := ords) (i := 0) h1 rfl
    obtain ⟨s', hs'⟩ := reachPlus_exists (ln := ln') (ords := ords') (i := 1) h2 rfl
    exact ⟨s, _, s', _, hs, hs', rfl, rfl, by decide, by decide⟩
  · obtain ⟨s, hs⟩ := reachPF_exists (ln := ln) (ords := ords) (i := 0) h1 rfl
    obtain ⟨s', hs'⟩ := reachPF_exists (ln := ln') (ords := ords') (i := 1) h2 rfl
    exact ⟨s, _, s', _, hs, hs', rfl, rfl, by decide, by decide⟩

/-- The hypotheses of `C43_plus_dense` are met by `demoDense` and a longer program. -/
example : ∃ s a r, ReachPlus Cfg.debug64 id (noCodec Nat) (fun _ => (IterOrder.id, IterOrder.id))
    demoDense 0 s a ∧ s.registers = some r ∧ a.S.card = 5 := demoDense_dense

end HLL
