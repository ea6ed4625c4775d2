import Verif.Props.State

/-!
# C08, C09: merging sketches of different value types

`merge` is generic in the value type and the builder of the other sketch.  Here the other sketch comes
from a program of its own, over another type of values.
-/

namespace HLL
open Spec

variable {I J : Type} {cfg : Cfg} {ln : F64 → F64} {c : Serde.Codec I} {c' : Serde.Codec J}
  {ords ords' ords'' : Nat → IterOrder × IterOrder} {pre post : List (Op I)} {ops : List (Op J)}
  {i j : Nat}

/-- A run continued from a store, after one of its elements was replaced. -/
theorem Sim.resume {A : Type} {P : Op I → Prop} {a : Api A I} {ρ : A → Abs I → Prop} {w maxP : Nat}
    {F : Nat → Finset Nat → F64} (h : Sim P a (setApi w maxP F) ρ) {st : List A} {tt : List (Abs I)}
    (hst : RelStore ρ st tt) (n : Nat) (hP : ∀ op ∈ post, P op) :
    ∃ st', HLL.run a ords n st post = .ok (st', expectedFrom w maxP F tt post) := by
  have hr := h.run ords ords post n n st tt hst hP
  rw [run_setApi] at hr
  cases h1 : HLL.run a ords n st post with
  | error e => rw [h1] at hr; exact hr.elim
  | ok x =>
    obtain ⟨x1, x2⟩ := x
    rw [h1] at hr
    obtain ⟨-, h3⟩ := hr
    obtain rfl : x2 = _ := h3
    exact ⟨x1, rfl⟩

/-- **C08**, other value types: let `s` be sketch `i` of a program `pre` over the values `I`, with the
hashes `a.S`, and `t` a sketch of any program over the values `J`, with the hashes `b.S`.  If their
precisions are equal, then `s.merge(&t)` returns `Ok`, and from then on everything is as if the hashes
`b.S` had been added to sketch `i`; otherwise it returns `IncompatiblePrecision` and leaves `s` as it
is. -/
theorem C08_plus_merge_other_type {st : List (Plus I)} {os : List Out} {s : Plus I} {t : Plus J}
    {a : Abs I} {b : Abs J} (h : Supported cfg c (pre ++ post)) (h' : Supported cfg c' ops)
    (hrun : run (Plus.api cfg ln c) ords 0 [] pre = .ok (st, os)) (hs : st[i]? = some s)
    (ha : (contents 64 18 pre)[i]? = some a) (ht : ReachPlus cfg ln c' ords' ops j t b)
    (o₁ o₂ : IterOrder) (n : Nat) :
    (a.p = b.p → ∃ s' st', Plus.merge cfg o₁ o₂ s t = .ok (s', .ok ()) ∧
      run (Plus.api cfg ln c) ords'' n (st.set i s') post = .ok (st',
        expectedFrom 64 18 (plusCount ln (Plus.biasOf cfg.search))
          ((contents 64 18 pre).set i ⟨a.builder, a.p, a.S ∪ b.S⟩) post)) ∧
    (a.p ≠ b.p → Plus.merge cfg o₁ o₂ s t = .ok (s, .error .IncompatiblePrecision)) := by
  obtain ⟨tr, -, -⟩ := ht.means h'
  have hall := h.allowed (maxP := 18) le_rfl
  have sim := Plus.sim cfg h.bits ln c (∃ i, Op.reload i ∈ pre ++ post)
  obtain ⟨st', h4, h5⟩ := sim.run_ok ords pre (fun op ho => hall op (by simp [ho]))
  rw [hrun] at h4
  cases h4
  have hm := h5.get i
  rw [hs, ha] at hm
  obtain ⟨m1, m2, m3, m4⟩ : Plus.Means cfg c (∃ i, Op.reload i ∈ pre ++ post) s a := by
    cases hm with
    | some h => exact h
  constructor
  · intro hp
    rw [← hp] at tr
    obtain ⟨s', e1, e2, e3⟩ := Plus.merge_ok cfg h.bits o₁ o₂ m1 tr
    have hst := h5.set i (a := s') (b := ⟨a.builder, a.p, a.S ∪ b.S⟩) ⟨e2, e3.trans m2, m3, m4⟩
    obtain ⟨st', e4⟩ := sim.resume (ords := ords'') (post := post) hst n (fun op ho => hall op (by simp [ho]))
    exact ⟨s', st', e1, e4⟩
  · intro hp
    exact Plus.merge_error cfg o₁ o₂ (by rw [m1.1.prec, tr.1.prec]; exact hp)

/-- **C09**, other value types: the same for `HyperLogLogPF`. -/
theorem C09_pf_merge_other_type {st : List (PF I)} {os : List Out} {s : PF I} {t : PF J}
    {a : Abs I} {b : Abs J} (h : Supported cfg c (pre ++ post)) (h' : Supported cfg c' ops)
    (hrun : run (PF.api cfg ln c) ords 0 [] pre = .ok (st, os)) (hs : st[i]? = some s)
    (ha : (contents 32 16 pre)[i]? = some a) (ht : ReachPF cfg ln c' ords' ops j t b) (n : Nat) :
    (a.p = b.p → ∃ s' st', PF.merge cfg s t = .ok (s', .ok ()) ∧
      run (PF.api cfg ln c) ords'' n (st.set i s') post = .ok (st',
        expectedFrom 32 16 (pfCount ln)
          ((contents 32 16 pre).set i ⟨a.builder, a.p, a.S ∪ b.S⟩) post)) ∧
    (a.p ≠ b.p → PF.merge cfg s t = .ok (s, .error .IncompatiblePrecision)) := by
  obtain ⟨tr, -, -⟩ := ht.means h'
  have hall := h.allowed (maxP := 16) (by norm_num)
  have sim := PF.sim cfg ln c (∃ i, Op.reload i ∈ pre ++ post)
  obtain ⟨st', h4, h5⟩ := sim.run_ok ords pre (fun op ho => hall op (by simp [ho]))
  rw [hrun] at h4
  cases h4
  have hm := h5.get i
  rw [hs, ha] at hm
  obtain ⟨m1, m2, m3, m4⟩ : PF.Means cfg c (∃ i, Op.reload i ∈ pre ++ post) s a := by
    cases hm with
    | some h => exact h
  constructor
  · intro hp
    rw [← hp] at tr
    obtain ⟨s', e1, e2, e3⟩ := PF.merge_ok cfg (by omega) m1 tr
    have hst := h5.set i (a := s') (b := ⟨a.builder, a.p, a.S ∪ b.S⟩) ⟨e2, e3.trans m2, m3, m4⟩
    obtain ⟨st', e4⟩ := sim.resume (ords := ords'') (post := post) hst n (fun op ho => hall op (by simp [ho]))
    exact ⟨s', st', e1, e4⟩
  · intro hp
    exact PF.merge_error cfg (by rw [m1.prec, tr.prec]; exact hp)

/-- An instance: a sketch of numbers gets the number 5, a sketch of Booleans the value `true`; they have
the hashes `5` and `2^63`.  After merging the second into the first, the first counts like any sketch
with the hashes `5` and `2^63`. -/
example {c : Serde.Codec Nat} {c' : Serde.Codec Bool} : ∃ st os s t s',
    run (Plus.api Cfg.debug64 ln c) ords 0 [] [.new 14 (BitVec.ofNat 64), .insert .insert 0 5] =
      .ok (st, os) ∧ st[0]? = some s ∧
    ReachPlus Cfg.debug64 ln c' ords' [.new 14 fun v => if v then 0x8000000000000000#64 else 0, .insert .insert 0 true]
      0 t ⟨fun v => if v then 0x8000000000000000#64 else 0, 14, {2 ^ 63}⟩ ∧
    Plus.merge Cfg.debug64 (ords 2).1 (ords 2).2 s t = .ok (s', .ok ()) ∧
    ∃ st', run (Plus.api Cfg.debug64 ln c) ords 3 (st.set 0 s') [.count 0] = .ok (st',
      [.count (plusCount ln (Plus.biasOf .earlyExit) 14 {5, 2 ^ 63})]) := by
  have hsup : Supported Cfg.debug64 c
      ([.new 14 (BitVec.ofNat 64), .insert .insert 0 5] ++ [.count 0]) := supported64 rfl _ (by simp)
  have hsup' : Supported Cfg.debug64 c'
      [.new 14 fun v => if v then 0x8000000000000000#64 else 0, .insert .insert 0 true] := supported64 rfl _ (by simp)
  obtain ⟨s, st, os, h1, h2, h3⟩ := reachPlus_exists (ln := ln) (ords := ords) (i := 0) hsup.prefix
    (a := ⟨BitVec.ofNat 64, 14, {5}⟩) rfl
  obtain ⟨t, ht⟩ := reachPlus_exists (ln := ln) (ords := ords') (i := 0) hsup'
    (a := ⟨fun v => if v then 0x8000000000000000#64 else 0, 14, {2 ^ 63}⟩) rfl
  obtain ⟨s', st', e1, e2⟩ := (C08_plus_merge_other_type (ords'' := ords) hsup hsup' h1 h2 h3 ht
    (ords 2).1 (ords 2).2 3).1 rfl
  exact ⟨st, os, s, t, s', h1, h2, ht, e1, st', e2⟩

end HLL
