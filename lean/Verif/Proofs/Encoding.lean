import Verif.Proofs.Prim
import Verif.Model.Encoding
import Verif.Spec

/-! # Lemmas on the variable-length and difference encodings -/

namespace HLL
namespace VarIntVec

theorem toNat_and_127 (x : U32) : (x &&& 127#32).toNat = x.toNat % 128 := by
  rw [BitVec.toNat_and]
  exact Nat.and_two_pow_sub_one_eq_mod x.toNat 7

theorem and_varMask_eq_zero (x : U32) : x &&& VAR_INT_MASK = 0 ↔ x.toNat < 128 := by
  have key : (x &&& VAR_INT_MASK).toNat = x.toNat / 128 * 128 := by
    have h1 : (x &&& 127#32) ||| (x &&& VAR_INT_MASK) = x := by
      ext i hi
      simp only [VAR_INT_MASK, BitVec.getElem_or, BitVec.getElem_and, BitVec.getElem_not]
      cases x[i] <;> simp
    have h2 : (x &&& 127#32) &&& (x &&& VAR_INT_MASK) = 0#32 := by
      ext i hi
      simp only [VAR_INT_MASK, BitVec.getElem_and, BitVec.getElem_not, BitVec.getElem_zero]
      cases x[i] <;> simp
    have h3 := BitVec.add_eq_or_of_and_eq_zero _ _ h2
    rw [h1] at h3
    have h4 := congrArg BitVec.toNat h3
    rw [BitVec.toNat_add_of_and_eq_zero h2, toNat_and_127] at h4
    omega
  constructor
  · intro h
    rw [h] at key
    simp at key
    omega
  · intro h
    apply BitVec.eq_of_toNat_eq
    rw [key]
    simp; omega

theorem msb_clear {b : U8} (h : b.toNat < 128) : b &&& 128#8 = 0 := by
  apply BitVec.eq_of_toNat_eq
  have := b.isLt
  revert h; revert b; decide

theorem msb_set (b : U8) (h : b.toNat < 128) : (b ||| 128#8).toNat = b.toNat + 128 ∧ (b ||| 128#8) &&& 128#8 ≠ 0 := by
  revert h; revert b; decide

theorem toNat_low7 (x : U32) : ((x &&& 127#32).setWidth 8 : U8).toNat = x.toNat % 128 := by
  rw [BitVec.toNat_setWidth, toNat_and_127]
  omega

theorem length_pushLoop (fuel : Nat) (x : U32) (h : x.toNat < 2 ^ (7 * fuel)) (hf : 0 < fuel) :
    (pushLoop fuel x).length = Spec.varLen x.toNat := by
  induction fuel generalizing x with
  | zero => omega
  | succ n ih =>
    rw [pushLoop, Spec.varLen]
    by_cases hx : x.toNat < 128
    · have := (and_varMask_eq_zero x).2 hx
      simp [this, hx]
    · have : x &&& VAR_INT_MASK ≠ 0 := fun h => hx ((and_varMask_eq_zero x).1 h)
      have hs : (x >>> 7).toNat = x.toNat / 128 := by simp [Nat.shiftRight_eq_div_pow]
      rw [if_pos this, if_neg hx, List.length_cons]
      rcases Nat.eq_zero_or_pos n with rfl | hn
      · simp at h; omega
      · rw [ih (x >>> 7) _ hn, hs, Nat.add_comm]
        rw [hs]
        have : 2 ^ (7 * (n + 1)) = 2 ^ (7 * n) * 128 := by rw [Nat.mul_add, Nat.pow_add]
        rw [this] at h
        exact Nat.div_lt_of_lt_mul (by rw [Nat.mul_comm]; exact h)

theorem push_length (v : VarIntVec) (x : U32) : (v.push x).length = v.length + Spec.varLen x.toNat := by
  rw [push, List.length_append, length_pushLoop _ _ _ (by norm_num)]
  exact lt_trans x.isLt (by norm_num)

theorem or_shift_toNat {a b : U32} {k n : Nat} (ha : a.toNat < 2 ^ k) (hb : b.toNat = n * 2 ^ k) :
    (a ||| b).toNat = a.toNat + b.toNat := by
  rw [BitVec.toNat_or, hb, Nat.or_comm, Nat.mul_comm n, ← Nat.two_pow_add_eq_or_of_lt ha]
  omega

/-- Decoding, in the middle of a number: `i` bytes of `v` have been read into `val`. -/
theorem decodeLoop_spec (cfg : Cfg) (pre post : List U8) (v : U32) (fuel k : Nat) :
    ∀ (i : Nat) (x val : U32) (mid : List U8), i + k = 5 → 0 < k → mid.length = i →
      x.toNat = v.toNat / 2 ^ (7 * i) → val.toNat = v.toNat % 2 ^ (7 * i) →
      k ≤ fuel →
      decodeLoop cfg (pre ++ mid ++ pushLoop k x ++ post) pre.length fuel i val =
        .ok (v, pre.length + i + (pushLoop k x).length) := by
  induction k generalizing fuel with
  | zero => intros; omega
  | succ k ih =>
    intro i x val mid hik _ hmid hx hval hfuel
    obtain ⟨fuel, rfl⟩ : ∃ f, fuel = f + 1 := ⟨fuel - 1, by omega⟩
    have hvlt := v.isLt
    have hmod : v.toNat % 2 ^ (7 * i) + x.toNat * 2 ^ (7 * i) = v.toNat := by
      rw [hx]; exact Nat.mod_add_div' _ _
    have hpowpos := Nat.two_pow_pos (7 * i)
    have hvlti : val.toNat < 2 ^ (7 * i) := by rw [hval]; exact Nat.mod_lt _ hpowpos
    rw [decodeLoop, pushLoop]
    by_cases hxs : x.toNat < 128
    · have h0 := (and_varMask_eq_zero x).2 hxs
      simp only [h0, ne_eq, not_true_eq_false, if_false]
      have hidx : index (pre ++ mid ++ [(x &&& 127#32).setWidth 8] ++ post) (pre.length + i) =
          .ok ((x &&& 127#32).setWidth 8) := by
        rw [index]; simp [← hmid]
      rw [hidx]
      have hb : ((x &&& 127#32).setWidth 8 : U8).toNat = x.toNat := by rw [toNat_low7]; omega
      have hm := msb_clear (b := (x &&& 127#32).setWidth 8) (by omega)
      simp only [ok_bind, hm, not_true_eq_false, if_false]
      have hi7 : i * 7 < 32 := by omega
      rw [shl_ok cfg _ hi7]
      simp only [ok_bind, pure_eq_ok, List.length_singleton]
      have hpart : ((((x &&& 127#32).setWidth 8 : U8).setWidth 32 : U32) <<< (i * 7)).toNat =
          x.toNat * 2 ^ (7 * i) := by
        rw [BitVec.toNat_shiftLeft, BitVec.toNat_setWidth, hb, Nat.shiftLeft_eq, Nat.mul_comm i 7]
        rw [Nat.mod_eq_of_lt (a := x.toNat) (by omega)]
        exact Nat.mod_eq_of_lt (by omega)
      congr 2
      apply BitVec.eq_of_toNat_eq
      rw [or_shift_toNat hvlti hpart, hpart, hval]
      exact hmod
    · have h0 : x &&& VAR_INT_MASK ≠ 0 := fun h => hxs ((and_varMask_eq_zero x).1 h)
      rw [if_pos h0]
      have hk : 0 < k := by
        rcases Nat.eq_zero_or_pos k with rfl | h
        · have : i = 4 := by omega
          subst this
          norm_num at hx
          omega
        · exact h
      have hidx : index (pre ++ mid ++ ((x &&& 127#32).setWidth 8 ||| 128#8) :: pushLoop k (x >>> 7) ++ post)
          (pre.length + i) = .ok ((x &&& 127#32).setWidth 8 ||| 128#8) := by
        rw [index]; simp [← hmid]
      have hlow := toNat_low7 x
      obtain ⟨hm1, hm2⟩ := msb_set ((x &&& 127#32).setWidth 8) (by omega)
      rw [hidx]
      simp only [ok_bind]
      rw [if_pos hm2]
      have hi7 : i * 7 < 32 := by omega
      rw [shl_ok cfg _ hi7]
      simp only [ok_bind]
      have hpart : (((((x &&& 127#32).setWidth 8 ||| 128#8 : U8).setWidth 32 : U32) &&& 127#32) <<< (i * 7)).toNat =
          (x.toNat % 128) * 2 ^ (7 * i) := by
        rw [BitVec.toNat_shiftLeft, toNat_and_127, BitVec.toNat_setWidth, hm1, hlow, Nat.shiftLeft_eq,
          Nat.mul_comm i 7]
        have : (x.toNat % 128 + 128) % 2 ^ 32 % 128 = x.toNat % 128 := by omega
        rw [this]
        apply Nat.mod_eq_of_lt
        calc x.toNat % 128 * 2 ^ (7 * i) ≤ x.toNat * 2 ^ (7 * i) :=
              Nat.mul_le_mul_right _ (Nat.mod_le _ _)
          _ < 2 ^ 32 := by omega
      have hxsh : (x >>> 7).toNat = x.toNat / 128 := by simp [Nat.shiftRight_eq_div_pow]
      have hp7 : 2 ^ (7 * (i + 1)) = 2 ^ (7 * i) * 128 := by rw [Nat.mul_add, Nat.pow_add]
      have := ih fuel (i + 1) (x >>> 7)
        (val ||| (((((x &&& 127#32).setWidth 8 ||| 128#8 : U8).setWidth 32 : U32) &&& 127#32) <<< (i * 7)))
        (mid ++ [(x &&& 127#32).setWidth 8 ||| 128#8]) (by omega) hk (by simp [hmid])
        (by rw [hxsh, hx, hp7, Nat.div_div_eq_div_mul])
        (by
          rw [or_shift_toNat hvlti hpart, hpart, hval, hp7, Nat.mod_mul, hx]
          ring)
        (by omega)
      simp only [List.append_assoc, List.cons_append, List.nil_append] at this ⊢
      rw [this]
      simp only [List.length_cons]
      congr 2
      omega

theorem pushLoop_length_pos (x : U32) : 0 < (pushLoop 5 x).length := by
  rw [pushLoop]; split <;> simp

theorem pushLoop_length_le (k : Nat) : ∀ x : U32, (pushLoop k x).length ≤ k := by
  induction k with
  | zero => intro x; simp [pushLoop]
  | succ k ih =>
    intro x
    rw [pushLoop]
    split
    · simpa using ih _
    · simp

/-- The fuel given by `decode` only needs to cover the bytes of the number being decoded. -/
theorem decodeLoop_fuel_mono (cfg : Cfg) (v : VarIntVec) (start : Nat) :
    ∀ (fuel i : Nat) (val : U32) (r : U32 × Nat), decodeLoop cfg v start fuel i val = .ok r →
      ∀ fuel', fuel ≤ fuel' → decodeLoop cfg v start fuel' i val = .ok r := by
  intro fuel
  induction fuel with
  | zero => intro i val r h; simp [decodeLoop] at h
  | succ n ih =>
    intro i val r h fuel' hf
    obtain ⟨fuel', rfl⟩ : ∃ f, fuel' = f + 1 := ⟨fuel' - 1, by omega⟩
    rw [decodeLoop] at h ⊢
    rw [bind_eq_ok] at h ⊢
    obtain ⟨b, hb, h⟩ := h
    refine ⟨b, hb, ?_⟩
    split at h
    · rename_i hc
      rw [if_pos hc]
      rw [bind_eq_ok] at h ⊢
      obtain ⟨part, hp, h⟩ := h
      exact ⟨part, hp, ih _ _ _ h _ (by omega)⟩
    · rename_i hc
      rw [if_neg hc]
      exact h

/-- More fuel than bytes left is never needed: a successful run uses at most one unit per byte. -/
theorem decodeLoop_fuel_bound (cfg : Cfg) (v : VarIntVec) (start : Nat) :
    ∀ (fuel i : Nat) (val : U32) (r : U32 × Nat), decodeLoop cfg v start fuel i val = .ok r →
      decodeLoop cfg v start (v.length - (start + i) + 1) i val = .ok r := by
  intro fuel
  induction fuel with
  | zero => intro i val r h; simp [decodeLoop] at h
  | succ n ih =>
    intro i val r h
    rw [decodeLoop] at h ⊢
    rw [bind_eq_ok] at h ⊢
    obtain ⟨b, hb, h⟩ := h
    refine ⟨b, hb, ?_⟩
    have hlt : start + i < v.length := by
      by_contra hge
      rw [index, List.getElem?_eq_none (by omega)] at hb
      cases hb
    split at h
    · rename_i hc
      rw [if_pos hc]
      rw [bind_eq_ok] at h ⊢
      obtain ⟨part, hp, h⟩ := h
      refine ⟨part, hp, ?_⟩
      have := ih _ _ _ h
      exact decodeLoop_fuel_mono _ _ _ _ _ _ _ this _ (by omega)
    · rename_i hc
      rw [if_neg hc]
      exact h

theorem decode_spec (cfg : Cfg) (pre post : List U8) (v : U32) :
    decode cfg (pre ++ pushLoop 5 v ++ post) pre.length =
      .ok (v, pre.length + (pushLoop 5 v).length) := by
  have h := decodeLoop_spec cfg pre post v 5 5 0 v 0#32 [] rfl (by norm_num) rfl (by simp)
    (by simp [Nat.mod_one]) le_rfl
  simp only [List.append_nil, Nat.add_zero] at h
  rw [decode]
  exact decodeLoop_fuel_mono _ _ _ _ _ _ _ (decodeLoop_fuel_bound _ _ _ _ _ _ _ h) _ (by omega)

theorem next_done (cfg : Cfg) (v : VarIntVec) : next cfg v v.length = .ok none := by
  simp [next]

theorem next_spec (cfg : Cfg) (pre post : List U8) (x : U32) :
    next cfg (pre ++ pushLoop 5 x ++ post) pre.length =
      .ok (some (x, pre.length + (pushLoop 5 x).length)) := by
  have := pushLoop_length_pos x
  rw [next, if_neg (by simp only [List.length_append]; omega), decode_spec]
  rfl

theorem collect_spec (cfg : Cfg) (L : List U32) :
    ∀ (pre : List U8) (fuel : Nat), (L.flatMap (pushLoop 5)).length < fuel →
      collect cfg (pre ++ L.flatMap (pushLoop 5)) fuel pre.length = .ok L := by
  induction L with
  | nil =>
    intro pre fuel hf
    obtain ⟨fuel, rfl⟩ : ∃ f, fuel = f + 1 := ⟨fuel - 1, by simp at hf; omega⟩
    have := next_done cfg pre
    simp [collect, this]
  | cons x xs ih =>
    intro pre fuel hf
    obtain ⟨fuel, rfl⟩ : ∃ f, fuel = f + 1 := ⟨fuel - 1, by simp at hf; omega⟩
    have hpos := pushLoop_length_pos x
    rw [List.flatMap_cons, List.length_append] at hf
    have h1 := next_spec cfg pre (xs.flatMap (pushLoop 5)) x
    rw [List.append_assoc] at h1
    have h2 := ih (pre ++ pushLoop 5 x) fuel (by omega)
    rw [List.length_append, List.append_assoc] at h2
    rw [collect, List.flatMap_cons, h1]
    simp only [ok_bind]
    rw [h2]
    simp

/-- Pushing the elements of `L` one after the other. -/
theorem foldl_push (L : List U32) : ∀ v : VarIntVec, L.foldl push v = v ++ L.flatMap (pushLoop 5) := by
  induction L with
  | nil => intro v; simp
  | cons x xs ih => intro v; rw [List.foldl_cons, ih, push]; simp

theorem toList_spec (cfg : Cfg) (L : List U32) : toList cfg (L.flatMap (pushLoop 5)) = .ok L := by
  have := collect_spec cfg L [] ((L.flatMap (pushLoop 5)).length + 1) (by omega)
  simpa [toList] using this

end VarIntVec

namespace DifIntVec

/-- The bytes of the difference encoding of a list. -/
def gapsBytes : (prev : U32) → List U32 → List U8
  | _, [] => []
  | prev, c :: cs => VarIntVec.pushLoop 5 (c - prev) ++ gapsBytes c cs

/-- `d` encodes the non-decreasing list `L`. -/
structure Enc (d : DifIntVec) (L : List U32) : Prop where
  count_eq : d.count = L.length
  last_eq : d.last = L.getLastD 0#32
  buf_eq : d.buf = gapsBytes 0#32 L
  sorted : L.Pairwise (· ≤ ·)

theorem enc_new : Enc new [] := ⟨rfl, rfl, rfl, List.Pairwise.nil⟩
theorem enc_clear (d : DifIntVec) : Enc d.clear [] := ⟨rfl, rfl, rfl, List.Pairwise.nil⟩

theorem gapsBytes_append (L : List U32) (v : U32) : ∀ prev : U32,
    gapsBytes prev (L ++ [v]) = gapsBytes prev L ++ VarIntVec.pushLoop 5 (v - L.getLastD prev) := by
  induction L with
  | nil => intro prev; simp [gapsBytes]
  | cons x xs ih =>
    intro prev
    rw [List.cons_append, gapsBytes, gapsBytes, ih x, List.append_assoc]
    congr 3
    cases xs <;> simp [List.getLastD]

theorem enc_push (cfg : Cfg) {d : DifIntVec} {L : List U32} (h : Enc d L) (v : U32)
    (hv : ∀ x ∈ L, x ≤ v) (hlen : L.length + 1 < 2 ^ cfg.usizeBits) :
    ∃ d', push cfg d v = .ok d' ∧ Enc d' (L ++ [v]) := by
  have hle : d.last.toNat ≤ v.toNat := by
    rw [h.last_eq]
    rcases L.eq_nil_or_concat with rfl | ⟨l, x, rfl⟩
    · simp
    · have := hv x (by simp)
      simpa using BitVec.le_def.1 this
  refine ⟨⟨d.count + 1, v, d.buf.push (v - d.last)⟩, ?_, ⟨?_, ?_, ?_, ?_⟩⟩
  · rw [push, subU32_ok cfg hle, ok_bind, addUsize_ok cfg (by rw [h.count_eq]; exact hlen)]
    rfl
  · simp [h.count_eq]
  · simp
  · rw [gapsBytes_append, ← h.buf_eq, ← h.last_eq]; rfl
  · rw [List.pairwise_append]
    exact ⟨h.sorted, by simp, by simpa using hv⟩

theorem gapsBytes_length (L : List U32) : ∀ prev : U32, (prev :: L).Pairwise (· ≤ ·) →
    (gapsBytes prev L).length = Spec.gapsSize prev.toNat (L.map BitVec.toNat) := by
  induction L with
  | nil => intro prev _; simp [gapsBytes, Spec.gapsSize]
  | cons x xs ih =>
    intro prev h
    rw [List.pairwise_cons] at h
    have hle : prev.toNat ≤ x.toNat := BitVec.le_def.1 (h.1 x (by simp))
    rw [gapsBytes, List.map_cons, Spec.gapsSize, List.length_append, ih x h.2,
      VarIntVec.length_pushLoop _ _ _ (by norm_num)]
    · rw [BitVec.toNat_sub_of_le (BitVec.le_def.2 hle)]
    · exact lt_trans (x - prev).isLt (by norm_num)

theorem zero_le_pairwise {L : List U32} (h : L.Pairwise (· ≤ ·)) :
    ((0#32) :: L).Pairwise (· ≤ ·) := by
  rw [List.pairwise_cons]
  exact ⟨fun a _ => BitVec.le_def.2 (by simp), h⟩

theorem Enc.len_eq {d : DifIntVec} {L : List U32} (h : Enc d L) :
    d.len = Spec.gapsSize 0 (L.map BitVec.toNat) := by
  rw [len, h.buf_eq, gapsBytes_length L 0#32 (zero_le_pairwise h.sorted)]
  rfl

theorem collect_spec (cfg : Cfg) (d : DifIntVec) (L : List U32) :
    ∀ (pre : List U8) (prev : U32) (fuel : Nat), d.buf = pre ++ gapsBytes prev L →
      (prev :: L).Pairwise (· ≤ ·) → (gapsBytes prev L).length < fuel →
      collect cfg d fuel ⟨pre.length, prev⟩ = .ok L := by
  induction L with
  | nil =>
    intro pre prev fuel hb _ hf
    obtain ⟨fuel, rfl⟩ : ∃ f, fuel = f + 1 := ⟨fuel - 1, by omega⟩
    have : d.buf.length ≤ pre.length := by rw [hb]; simp [gapsBytes]
    simp [collect, next, this]
  | cons x xs ih =>
    intro pre prev fuel hb hs hf
    obtain ⟨fuel, rfl⟩ : ∃ f, fuel = f + 1 := ⟨fuel - 1, by omega⟩
    rw [List.pairwise_cons] at hs
    have hle : prev.toNat ≤ x.toNat := BitVec.le_def.1 (hs.1 x (by simp))
    have hpos := VarIntVec.pushLoop_length_pos (x - prev)
    rw [gapsBytes, List.length_append] at hf
    have hsum : prev.toNat + (x - prev).toNat = x.toNat := by
      rw [BitVec.toNat_sub_of_le (BitVec.le_def.2 hle)]; omega
    have hxlt := x.isLt
    have hadd : prev + (x - prev) = x := by
      apply BitVec.eq_of_toNat_eq
      rw [BitVec.toNat_add, hsum]
      omega
    have h1 : d.next cfg ⟨pre.length, prev⟩ =
        .ok (some (x, ⟨pre.length + (VarIntVec.pushLoop 5 (x - prev)).length, x⟩)) := by
      rw [next, if_neg (by rw [hb, gapsBytes]; simp only [List.length_append]; omega), hb, gapsBytes, ← List.append_assoc,
        VarIntVec.decode_spec]
      simp only [ok_bind]
      rw [addU32_ok cfg (by omega), hadd]
      rfl
    have h2 := ih (pre ++ VarIntVec.pushLoop 5 (x - prev)) x fuel (by rw [hb, gapsBytes]; simp)
      hs.2 (by omega)
    rw [List.length_append] at h2
    rw [collect, h1]
    simp only [ok_bind]
    rw [h2]
    rfl

theorem Enc.toList_eq (cfg : Cfg) {d : DifIntVec} {L : List U32} (h : Enc d L) :
    d.toList cfg = .ok L := by
  have := collect_spec cfg d L [] 0#32 (d.buf.length + 1) (by simpa using h.buf_eq)
    (zero_le_pairwise h.sorted) (by rw [← h.buf_eq]; omega)
  simpa [toList] using this

end DifIntVec
end HLL
