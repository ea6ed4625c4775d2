import Verif.Proofs.Deserialize
import Verif.Proofs.SpecLemmas

/-! # Properties of the encodings: C17, C18, C25 -/

namespace HLL

/-- **C17.** Pushing any values into a variable-length vector and iterating returns exactly these
values. -/
theorem C17_varint_roundtrip (cfg : Cfg) (L : List U32) :
    VarIntVec.toList cfg (L.foldl VarIntVec.push VarIntVec.new) = .ok L := by
  rw [VarIntVec.foldl_push]
  exact VarIntVec.toList_spec cfg L

/-- **C17.** A pushed value takes `⌈bits/7⌉` bytes, at least 1: the least `k ≥ 1` with `v < 128^k`,
which is at most 5. -/
theorem C17_varint_size (v : VarIntVec) (x : U32) :
    ∃ k, (v.push x).length = v.length + k ∧ 1 ≤ k ∧ k ≤ 5 ∧ x.toNat < 128 ^ k ∧
      ∀ j, 1 ≤ j → x.toNat < 128 ^ j → k ≤ j := by
  refine ⟨Spec.varLen x.toNat, VarIntVec.push_length v x, varLen_pos _, ?_,
    lt_pow_varLen _, fun j h1 h2 => varLen_le h1 h2⟩
  exact varLen_le (by norm_num) (lt_trans x.isLt (by norm_num))

/-- **C17.** Pushing appends the LEB128 encoding of the value and leaves the earlier bytes as they are. -/
theorem C17_varint_append (v : VarIntVec) (x : U32) :
    (v.push x).map BitVec.toNat = v.map BitVec.toNat ++ Spec.varBytes x.toNat := by
  rw [VarIntVec.push, List.map_append, pushLoop_bytes 5 x (lt_trans x.isLt (by norm_num)) (by norm_num)]

example : Spec.varBytes 300 = [172, 2] := by decide +kernel

/-- Pushing a sequence of values into a difference-encoded vector. -/
def pushAll (cfg : Cfg) (L : List U32) (d : DifIntVec) : R DifIntVec := L.foldlM (DifIntVec.push cfg) d

theorem pushAll_ok (cfg : Cfg) : ∀ (L O : List U32) (d : DifIntVec), DifIntVec.Enc d O →
    (O ++ L).Pairwise (· ≤ ·) → (O ++ L).length < 2 ^ cfg.usizeBits →
    ∃ d', pushAll cfg L d = .ok d' ∧ DifIntVec.Enc d' (O ++ L)
  | [], O, d, h, _, _ => ⟨d, rfl, by simpa using h⟩
  | v :: L, O, d, h, hs, hl => by
    rw [show O ++ v :: L = (O ++ [v]) ++ L by simp] at hs hl ⊢
    obtain ⟨d1, e1, e2⟩ := DifIntVec.enc_push cfg h v (by
      have := (List.pairwise_append.1 hs).1
      intro x hx
      exact (List.pairwise_append.1 this).2.2 x hx v (by simp)) (by
      simp only [List.length_append, List.length_cons, List.length_nil] at hl ⊢; omega)
    obtain ⟨d2, e3, e4⟩ := pushAll_ok cfg L (O ++ [v]) d1 e2 hs hl
    refine ⟨d2, ?_, e4⟩
    rw [pushAll, List.foldlM_cons, e1, ok_bind]
    exact e3

/-- **C18.** Pushing a non-decreasing sequence into a difference-encoded vector succeeds; iterating
returns exactly that sequence, `count` is its length and `len` its encoded size. -/
theorem C18_difint_roundtrip (cfg : Cfg) {L : List U32} (hs : L.Pairwise (· ≤ ·))
    (hl : L.length < 2 ^ cfg.usizeBits) :
    ∃ d, pushAll cfg L DifIntVec.new = .ok d ∧ d.toList cfg = .ok L ∧ d.count = L.length ∧
      d.len = Spec.gapsSize 0 (L.map BitVec.toNat) := by
  obtain ⟨d, h1, h2⟩ := pushAll_ok cfg L [] DifIntVec.new DifIntVec.enc_new (by simpa using hs)
    (by simpa using hl)
  rw [List.nil_append] at h2
  exact ⟨d, h1, h2.toList_eq cfg, h2.count_eq, h2.len_eq⟩

example : ([3, 3, 500, 4294967295] : List U32).Pairwise (· ≤ ·) := by decide

/-- **C18.** Pushing a value smaller than the last one panics when overflow checks are on. -/
theorem C18_difint_decreasing_panics (cfg : Cfg) (hc : cfg.overflowChecks = true) {L : List U32}
    (hs : L.Pairwise (· ≤ ·)) (hl : L.length < 2 ^ cfg.usizeBits) (hne : L ≠ []) {v : U32}
    (hv : v < L.getLast hne) : pushAll cfg (L ++ [v]) DifIntVec.new = .error .overflow := by
  obtain ⟨d, h1, h2⟩ := pushAll_ok cfg L [] DifIntVec.new DifIntVec.enc_new (by simpa using hs)
    (by simpa using hl)
  rw [List.nil_append] at h2
  rw [pushAll, List.foldlM_append]
  rw [pushAll] at h1
  rw [h1, ok_bind, List.foldlM_cons, DifIntVec.push]
  have h3 : d.last = L.getLast hne := by
    rw [h2.last_eq, List.getLastD_eq_getLast?, List.getLast?_eq_getLast_of_ne_nil hne]; rfl
  have h4 : subU32 cfg v d.last = .error .overflow := by
    rw [subU32, if_pos ⟨hc, by rw [h3]; exact BitVec.lt_def.1 hv⟩]
  rw [h4]; rfl

example : (2 : U32) < ([3, 500] : List U32).getLast (by simp) := by decide

/-- **C25.** Two hashes get the same 32-bit sparse code iff they agree on the top 25 bits and, when
bits `p..25` are all zero, also on the rank of the remaining 39 bits. -/
theorem C25_code_injective (cfg : Cfg) {p : Nat} (hp1 : 4 ≤ p) (hp2 : p ≤ 18) (h h' : U64) :
    ∃ x x', Plus.encodeHash cfg p h = .ok x ∧ Plus.encodeHash cfg p h' = .ok x' ∧
      (x = x' ↔ h.toNat / 2 ^ 39 = h'.toNat / 2 ^ 39 ∧
        (h.toNat / 2 ^ 39 % 2 ^ (25 - p) = 0 →
          Spec.rank 64 25 h.toNat = Spec.rank 64 25 h'.toNat)) := by
  obtain ⟨x, h1, h2⟩ := Plus.encodeHash_ok cfg hp1 hp2 h
  obtain ⟨x', h1', h2'⟩ := Plus.encodeHash_ok cfg hp1 hp2 h'
  refine ⟨x, x', h1, h1', ?_⟩
  have hx : x = x' ↔ Spec.code p h.toNat = Spec.code p h'.toNat := by
    rw [← h2, ← h2']
    exact ⟨fun h => by rw [h], fun h => BitVec.eq_of_toNat_eq h⟩
  rw [hx]
  have a1 := firstOne_le 39 h.toNat
  have a2 := firstOne_le 39 h'.toNat
  unfold Spec.code Spec.rank
  simp only [show 64 - 25 = 39 from rfl]
  generalize Spec.firstOne 39 h.toNat = f at *
  generalize Spec.firstOne 39 h'.toNat = f' at *
  generalize h.toNat / 2 ^ 39 = a
  generalize h'.toNat / 2 ^ 39 = a'
  by_cases e : a % 2 ^ (25 - p) = 0 <;> by_cases e' : a' % 2 ^ (25 - p) = 0
  · rw [if_pos e, if_pos e']
    constructor
    · intro hh; exact ⟨by omega, fun _ => by omega⟩
    · rintro ⟨rfl, hh⟩; rw [hh e]
  · rw [if_pos e, if_neg e']
    constructor
    · intro hh; omega
    · rintro ⟨rfl, hh⟩; exact absurd e e'
  · rw [if_neg e, if_pos e']
    constructor
    · intro hh; omega
    · rintro ⟨rfl, hh⟩; exact absurd e' e
  · rw [if_neg e, if_neg e']
    constructor
    · intro hh; exact ⟨by omega, fun hh' => absurd hh' e⟩
    · rintro ⟨rfl, hh⟩; rfl

/-- **C25.** The code determines the register and rank that the hash has in dense mode. -/
theorem C25_code_determines_register (cfg : Cfg) {p : Nat} (hp1 : 4 ≤ p) (hp2 : p ≤ 18) (h : U64) :
    ∃ x z, Plus.encodeHash cfg p h = .ok x ∧
      Plus.decodeHash cfg p x = .ok (z, Spec.bucket 64 p h.toNat) ∧
      z.toNat = Spec.rank 64 p h.toNat := by
  obtain ⟨x, h1, h2⟩ := Plus.encodeHash_ok cfg hp1 hp2 h
  obtain ⟨z, h3, h4⟩ := Plus.decodeHash_ok cfg hp1 hp2 h.isLt h2
  exact ⟨x, z, h1, h3, h4⟩

end HLL
