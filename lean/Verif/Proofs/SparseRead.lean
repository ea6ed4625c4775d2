import Verif.SpecUseSparse
import Verif.Proofs.PlusUse

/-! # Reading arbitrary bytes as a sparse list -/

namespace HLL
open Spec

namespace VarIntVec

theorem msb_iff (b : U8) : b &&& 128#8 ≠ 0 ↔ 128 ≤ b.toNat := by
  revert b; decide

/-- Adding the next 7 bits; what does not fit in 32 bits is lost. -/
theorem or_part {val y : U32} {i n : Nat} (hi : i * 7 < 32) (hv : val.toNat < 2 ^ (7 * i))
    (hy : y.toNat = n) : (val ||| y <<< (i * 7)).toNat = (val.toNat + n * 2 ^ (7 * i)) % 2 ^ 32 := by
  have hpart : (y <<< (i * 7)).toNat = (n % 2 ^ (32 - 7 * i)) * 2 ^ (7 * i) := by
    rw [BitVec.toNat_shiftLeft, hy, Nat.shiftLeft_eq, Nat.mul_comm i 7,
      show 2 ^ 32 = 2 ^ (32 - 7 * i) * 2 ^ (7 * i) by rw [← pow_add]; congr 1; omega,
      Nat.mul_mod_mul_right]
  rw [or_shift_toNat hv hpart, hpart]
  have h32 : 2 ^ 32 = 2 ^ (32 - 7 * i) * 2 ^ (7 * i) := by rw [← pow_add]; congr 1; omega
  have h1 := Nat.mod_lt n (Nat.two_pow_pos (32 - 7 * i))
  have h2 : (n % 2 ^ (32 - 7 * i) + 1) * 2 ^ (7 * i) ≤ 2 ^ (32 - 7 * i) * 2 ^ (7 * i) :=
    Nat.mul_le_mul_right _ h1
  have h3 : n * 2 ^ (7 * i) % 2 ^ 32 = (n % 2 ^ (32 - 7 * i)) * 2 ^ (7 * i) := by
    rw [h32, Nat.mul_mod_mul_right]
  rw [Nat.add_mul, Nat.one_mul, ← h32] at h2
  have h4 := Nat.two_pow_pos (7 * i)
  generalize n % 2 ^ (32 - 7 * i) * 2 ^ (7 * i) = A at *
  generalize n * 2 ^ (7 * i) = B at *
  generalize 2 ^ (7 * i) = P at *
  omega

/-- The bytes of the rest of a number. -/
def Tail (k : Nat) (g : List U8) : Prop :=
  g.length ≤ k ∧ ∃ init last, g = init ++ [last] ∧ (∀ b ∈ init, 128 ≤ b.toNat) ∧ last.toNat < 128

theorem Tail.cons {k : Nat} {b : U8} {g : List U8} (hb : 128 ≤ b.toNat) (h : Tail k g) :
    Tail (k + 1) (b :: g) := by
  obtain ⟨h1, init, last, rfl, h2, h3⟩ := h
  refine ⟨by simpa using h1, b :: init, last, rfl, ?_, h3⟩
  intro x hx
  rcases List.mem_cons.1 hx with rfl | hx
  exacts [hb, h2 x hx]

theorem Tail.inv {k : Nat} {b : U8} {g : List U8} (h : Tail k (b :: g)) :
    (g = [] ∧ b.toNat < 128 ∧ 1 ≤ k) ∨ (128 ≤ b.toNat ∧ ∃ k', k = k' + 1 ∧ Tail k' g) := by
  obtain ⟨h1, init, last, h2, h3, h4⟩ := h
  rw [List.length_cons] at h1
  cases init with
  | nil =>
    rw [List.nil_append, List.cons.injEq] at h2
    obtain ⟨rfl, rfl⟩ := h2
    exact Or.inl ⟨rfl, h4, by omega⟩
  | cons x init =>
    rw [List.cons_append, List.cons.injEq] at h2
    obtain ⟨rfl, rfl⟩ := h2
    exact Or.inr ⟨h3 b (by simp), k - 1, by omega, by omega, init, last, rfl, fun y hy => h3 y (by simp [hy]), h4⟩

/-- The value of the digits. -/
def digits (g : List U8) : Nat := Nat.ofDigits 128 (g.map fun b => b.toNat % 128)

theorem index_append (pre : List U8) (b : U8) (post : List U8) :
    index (pre ++ b :: post) pre.length = .ok b := by
  rw [index]; simp

/-- Reading a number that ends in time. -/
theorem decodeLoop_tail (cfg : Cfg) : ∀ (g pre post : List U8) (k i start fuel : Nat) (val : U32),
    Tail k g → i + k = 5 → pre.length = start + i → val.toNat < 2 ^ (7 * i) → g.length ≤ fuel →
    ∃ x : U32, decodeLoop cfg (pre ++ g ++ post) start fuel i val = .ok (x, start + i + g.length) ∧
      x.toNat = (val.toNat + digits g * 2 ^ (7 * i)) % 2 ^ 32
  | [], _, _, _, _, _, _, _, h, _, _, _, _ => by
    obtain ⟨_, init, last, h2, _⟩ := h
    simp at h2
  | b :: g, pre, post, k, i, start, fuel, val, h, hk, hpre, hval, hf => by
    rw [List.length_cons] at hf
    obtain ⟨fuel, rfl⟩ : ∃ f, fuel = f + 1 := ⟨fuel - 1, by omega⟩
    have hb := b.isLt
    rw [decodeLoop, List.append_assoc, List.cons_append, ← hpre, index_append, ok_bind]
    rcases h.inv with ⟨rfl, h1, h2⟩ | ⟨h1, k', rfl, h2⟩
    · rw [if_neg (by rw [msb_iff]; omega), shl_ok cfg _ (by omega), ok_bind]
      refine ⟨_, rfl, ?_⟩
      rw [or_part (n := b.toNat) (by omega) hval (by rw [BitVec.toNat_setWidth]; omega), digits]
      simp only [List.map_cons, List.map_nil, Nat.ofDigits_singleton]
      rw [Nat.mod_eq_of_lt h1]
    · rw [if_pos ((msb_iff b).2 h1)]
      have hk' : 1 ≤ k' := by
        obtain ⟨g1, init, last, rfl, _⟩ := h2
        simp at g1
        omega
      rw [shl_ok cfg _ (by omega), ok_bind]
      have hp : (val ||| ((b.setWidth 32 : U32) &&& 127#32) <<< (i * 7)).toNat =
          val.toNat + b.toNat % 128 * 2 ^ (7 * i) := by
        rw [or_part (n := b.toNat % 128) (by omega) hval
          (by rw [toNat_and_127, BitVec.toNat_setWidth]; omega)]
        apply Nat.mod_eq_of_lt
        have h3 : (b.toNat % 128 + 1) * 2 ^ (7 * i) ≤ 128 * 2 ^ (7 * i) := Nat.mul_le_mul_right _ (by omega)
        have h4 : 128 * 2 ^ (7 * i) ≤ 2 ^ 28 := by
          rw [show 128 = 2 ^ 7 from rfl, ← pow_add]
          exact Nat.pow_le_pow_right (by norm_num) (by omega)
        rw [Nat.add_mul, Nat.one_mul] at h3
        omega
      have hp7 : 2 ^ (7 * (i + 1)) = 2 ^ (7 * i) * 128 := by rw [Nat.mul_add, Nat.pow_add]
      obtain ⟨x, h5, h6⟩ := decodeLoop_tail cfg g (pre ++ [b]) post k' (i + 1) start fuel _ h2 (by omega)
        (by simp; omega) (by
          rw [hp, hp7]
          have h3 : (b.toNat % 128 + 1) * 2 ^ (7 * i) ≤ 128 * 2 ^ (7 * i) :=
            Nat.mul_le_mul_right _ (by omega)
          rw [Nat.add_mul, Nat.one_mul] at h3
          omega) (by omega)
      refine ⟨x, ?_, ?_⟩
      · rw [List.append_assoc, List.append_assoc, List.singleton_append] at h5
        rw [h5, List.length_cons]
        congr 2
        omega
      · rw [h6, hp, hp7, digits, digits, List.map_cons, Nat.ofDigits_cons]
        congr 1
        ring

/-- With overflow checks nothing else can be read. -/
theorem decodeLoop_inv (cfg : Cfg) (ho : cfg.overflowChecks = true) : ∀ (rest pre : List U8)
    (i start fuel : Nat) (val : U32) (r : U32 × Nat), pre.length = start + i → i ≤ 5 →
    decodeLoop cfg (pre ++ rest) start fuel i val = .ok r →
    ∃ g post, rest = g ++ post ∧ Tail (5 - i) g
  | rest, pre, i, start, 0, val, r, _, _, h => by rw [decodeLoop] at h; cases h
  | [], pre, i, start, fuel + 1, val, r, hpre, _, h => by
    rw [decodeLoop, index, List.getElem?_eq_none (by simp; omega)] at h
    cases h
  | b :: rest, pre, i, start, fuel + 1, val, r, hpre, hi, h => by
    rw [decodeLoop, ← hpre, index_append, ok_bind] at h
    have hi7 : i * 7 < 32 := by
      by_contra hcon
      rw [PF.shl_error cfg ho _ (by omega), PF.shl_error cfg ho _ (by omega)] at h
      split at h <;> cases h
    by_cases hb : 128 ≤ b.toNat
    · rw [if_pos ((msb_iff b).2 hb), shl_ok cfg _ hi7, ok_bind,
        show pre ++ b :: rest = (pre ++ [b]) ++ rest by simp] at h
      obtain ⟨g, post, rfl, h2⟩ := decodeLoop_inv cfg ho rest (pre ++ [b]) (i + 1) start fuel _ r
        (by simp; omega) (by omega) h
      refine ⟨b :: g, post, rfl, ?_⟩
      rw [show 5 - i = 5 - (i + 1) + 1 by omega]
      exact h2.cons hb
    · exact ⟨[b], rest, rfl, by simp; omega, [], b, rfl, by simp, by omega⟩

end VarIntVec

theorem isGroup_iff (g : List U8) : IsGroup (g.map BitVec.toNat) ↔ VarIntVec.Tail 5 g := by
  constructor
  · rintro ⟨h1, init, last, h2, h3, h4⟩
    rw [List.length_map] at h1
    refine ⟨h1, ?_⟩
    rcases g.eq_nil_or_concat with rfl | ⟨l, x, rfl⟩
    · simp at h2
    · rw [List.concat_eq_append, List.map_append] at h2
      obtain ⟨h5, h6⟩ := List.append_inj' h2 rfl
      simp only [List.map_cons, List.map_nil, List.cons.injEq, and_true] at h6
      refine ⟨l, x, by simp, fun b hb => h3 _ ?_, by omega⟩
      rw [← h5]; exact List.mem_map_of_mem hb
  · rintro ⟨h1, init, last, rfl, h3, h4⟩
    refine ⟨by simpa using h1, init.map BitVec.toNat, last.toNat, by simp, ?_, h4⟩
    intro b hb
    obtain ⟨x, hx, rfl⟩ := List.mem_map.1 hb
    exact h3 x hx

theorem groupValue_eq (g : List U8) : groupValue (g.map BitVec.toNat) = VarIntVec.digits g % 2 ^ 32 := by
  rw [groupValue, VarIntVec.digits, List.map_map]
  rfl

namespace DifIntVec

/-- Reading one code. -/
theorem next_group (cfg : Cfg) (d : DifIntVec) {g pre post : List U8} (hd : d.buf = pre ++ g ++ post)
    (hg : VarIntVec.Tail 5 g) (prev : U32) :
    ∃ x : U32, x.toNat = groupValue (g.map BitVec.toNat) ∧
      d.next cfg ⟨pre.length, prev⟩ = (do
        let last ← addU32 cfg prev x
        pure (some (last, ⟨pre.length + g.length, last⟩))) := by
  have hpos : 0 < g.length := by
    obtain ⟨_, init, last, rfl, _⟩ := hg
    simp
  have hlen : pre.length + g.length + post.length = d.buf.length := by rw [hd]; simp; omega
  obtain ⟨x, h1, h2⟩ := VarIntVec.decodeLoop_tail cfg g pre post 5 0 pre.length (d.buf.length + 1) 0#32 hg
    rfl rfl (by simp) (by omega)
  refine ⟨x, ?_, ?_⟩
  · rw [h2, groupValue_eq]; simp
  · rw [next, if_neg (by simp only; omega), VarIntVec.decode]
    simp only
    rw [show VarIntVec.decodeLoop cfg d.buf pre.length (d.buf.length + 1) 0 0#32 =
      .ok (x, pre.length + 0 + g.length) by rw [← h1, hd]]
    rfl

theorem collect_groups (cfg : Cfg) (d : DifIntVec) : ∀ (gs : List (List U8)) (pre : List U8) (prev : U32)
    (fuel : Nat), d.buf = pre ++ gs.flatten → (∀ g ∈ gs, VarIntVec.Tail 5 g) →
    (∀ c ∈ runningSums prev.toNat (gs.map fun g => groupValue (g.map BitVec.toNat)), c < 2 ^ 32) →
    gs.flatten.length < fuel →
    ∃ L, collect cfg d fuel ⟨pre.length, prev⟩ = .ok L ∧
      L.map BitVec.toNat = runningSums prev.toNat (gs.map fun g => groupValue (g.map BitVec.toNat))
  | [], pre, prev, fuel, hb, _, _, hf => by
    obtain ⟨fuel, rfl⟩ : ∃ f, fuel = f + 1 := ⟨fuel - 1, by omega⟩
    have : d.buf.length ≤ pre.length := by rw [hb]; simp
    exact ⟨[], by simp [collect, next, this], rfl⟩
  | g :: gs, pre, prev, fuel, hb, hg, hc, hf => by
    obtain ⟨fuel, rfl⟩ : ∃ f, fuel = f + 1 := ⟨fuel - 1, by omega⟩
    rw [List.flatten_cons, List.length_append] at hf
    have hpos : 0 < g.length := by
      obtain ⟨_, init, last, rfl, _⟩ := hg g (by simp)
      simp
    obtain ⟨x, h1, h2⟩ := next_group cfg d (g := g) (pre := pre) (post := gs.flatten)
      (by rw [hb, List.flatten_cons, List.append_assoc]) (hg g (by simp)) prev
    rw [List.map_cons, runningSums] at hc
    have hs : prev.toNat + x.toNat < 2 ^ 32 := by rw [h1]; exact hc _ (by simp)
    have hsum : (prev + x).toNat = prev.toNat + groupValue (g.map BitVec.toNat) := by
      rw [BitVec.toNat_add, Nat.mod_eq_of_lt hs, h1]
    obtain ⟨L, h3, h4⟩ := collect_groups cfg d gs (pre ++ g) (prev + x) fuel (by rw [hb]; simp)
      (fun g' h' => hg g' (by simp [h'])) (fun c h' => hc c (by rw [hsum] at h'; simp [h'])) (by omega)
    refine ⟨(prev + x) :: L, ?_, ?_⟩
    · rw [collect, h2, addU32_ok cfg hs]
      simp only [ok_bind, pure_eq_ok]
      rw [List.length_append] at h3
      rw [h3]
      rfl
    · rw [List.map_cons, List.map_cons, runningSums, h4, hsum]

theorem collect_inv (cfg : Cfg) (ho : cfg.overflowChecks = true) (d : DifIntVec) : ∀ (fuel : Nat)
    (rest pre : List U8) (prev : U32) (L : List U32), d.buf = pre ++ rest → rest.length < fuel →
    collect cfg d fuel ⟨pre.length, prev⟩ = .ok L →
    ∃ gs : List (List U8), gs.flatten = rest ∧ (∀ g ∈ gs, VarIntVec.Tail 5 g) ∧
      L.map BitVec.toNat = runningSums prev.toNat (gs.map fun g => groupValue (g.map BitVec.toNat))
  | 0, rest, pre, prev, L, _, hf, _ => by omega
  | fuel + 1, rest, pre, prev, L, hb, hf, h => by
    rcases rest with - | ⟨b, rest'⟩
    · have : d.buf.length ≤ pre.length := by rw [hb]; simp
      rw [collect, next, if_pos this] at h
      cases h
      exact ⟨[], rfl, by simp, rfl⟩
    · have hg : ∃ g post, b :: rest' = g ++ post ∧ VarIntVec.Tail 5 g := by
        rw [collect, bind_eq_ok] at h
        obtain ⟨o, h1, -⟩ := h
        rw [next, if_neg (by rw [hb]; simp), bind_eq_ok] at h1
        obtain ⟨⟨x, j⟩, h1, -⟩ := h1
        rw [VarIntVec.decode] at h1
        simp only at h1
        rw [show VarIntVec.decodeLoop cfg d.buf pre.length (d.buf.length + 1) 0 0#32 =
          VarIntVec.decodeLoop cfg (pre ++ b :: rest') pre.length (d.buf.length + 1) 0 0#32 by rw [← hb]] at h1
        exact VarIntVec.decodeLoop_inv cfg ho (b :: rest') pre 0 _ _ _ _ rfl (by norm_num) h1
      obtain ⟨g, post, hgp, hg⟩ := hg
      rw [hgp] at hb hf ⊢
      have hpos : 0 < g.length := by
        obtain ⟨_, init, last, rfl, _⟩ := hg
        simp
      rw [List.length_append] at hf
      obtain ⟨x, h1, h2⟩ := next_group cfg d (g := g) (pre := pre) (post := post)
        (by rw [hb, List.append_assoc]) hg prev
      have hs : prev.toNat + x.toNat < 2 ^ 32 := by
        by_contra hcon
        rw [collect, h2, addU32, if_pos ⟨ho, by omega⟩] at h
        cases h
      have hsum : (prev + x).toNat = prev.toNat + groupValue (g.map BitVec.toNat) := by
        rw [BitVec.toNat_add, Nat.mod_eq_of_lt hs, h1]
      rw [collect, h2, addU32_ok cfg hs] at h
      simp only [ok_bind, pure_eq_ok] at h
      rw [bind_eq_ok] at h
      obtain ⟨L', h3, h4⟩ := h
      cases h4
      obtain ⟨gs, e1, e2, e3⟩ := collect_inv cfg ho d fuel post (pre ++ g) (prev + x) L'
        (by rw [hb]; simp) (by omega) (by rw [List.length_append]; exact h3)
      refine ⟨g :: gs, by rw [List.flatten_cons, e1], ?_, ?_⟩
      · intro g' h'
        rcases List.mem_cons.1 h' with rfl | h'
        exacts [hg, e2 g' h']
      · rw [List.map_cons, List.map_cons, runningSums, e3, hsum]

theorem map_flatten_eq {gs : List (List Nat)} : ∀ {bs : List U8}, gs.flatten = bs.map BitVec.toNat →
    ∃ hs : List (List U8), hs.flatten = bs ∧ hs.map (fun g => g.map BitVec.toNat) = gs := by
  induction gs with
  | nil =>
    intro bs h
    rw [List.flatten_nil, eq_comm, List.map_eq_nil_iff] at h
    exact ⟨[], by simp [h], rfl⟩
  | cons g gs ih =>
    intro bs h
    rw [List.flatten_cons, eq_comm, List.map_eq_append_iff] at h
    obtain ⟨l1, l2, rfl, h1, h2⟩ := h
    obtain ⟨hs, e1, e2⟩ := ih h2.symm
    exact ⟨l1 :: hs, by rw [List.flatten_cons, e1], by rw [List.map_cons, e2, h1]⟩

/-- With overflow checks, what `for code in &sparse` yields. -/
theorem toList_iff (cfg : Cfg) (ho : cfg.overflowChecks = true) (d : DifIntVec) (L : List U32) :
    d.toList cfg = .ok L ↔ ReadsAs (d.buf.map BitVec.toNat) (L.map BitVec.toNat) := by
  constructor
  · intro h
    obtain ⟨gs, e1, e2, e3⟩ := collect_inv cfg ho d _ d.buf [] 0#32 L rfl (by omega) h
    refine ⟨gs.map fun g => g.map BitVec.toNat, by rw [← e1, List.map_flatten], ?_, ?_, ?_⟩
    · intro g hg
      obtain ⟨g', hg', rfl⟩ := List.mem_map.1 hg
      exact (isGroup_iff g').2 (e2 g' hg')
    · rw [e3, List.map_map]; rfl
    · intro c hc
      obtain ⟨x, _, rfl⟩ := List.mem_map.1 hc
      exact x.isLt
  · rintro ⟨gs, h1, h2, h3, h4⟩
    obtain ⟨hs, e1, rfl⟩ := map_flatten_eq h1
    rw [List.map_map] at h3
    obtain ⟨L', e2, e3⟩ := collect_groups cfg d hs [] 0#32 (d.buf.length + 1) (by rw [e1]; rfl)
      (fun g hg => (isGroup_iff g).1 (h2 _ (List.mem_map_of_mem hg)))
      (fun c hc => h4 c (by rw [h3]; exact hc)) (by rw [e1]; omega)
    have : L' = L := map_toNat_inj (by rw [e3, h3]; rfl)
    rw [← this]
    exact e2

theorem runningSums_sorted : ∀ (ds : List Nat) (prev : Nat),
    (runningSums prev ds).Pairwise (· ≤ ·) ∧ ∀ c ∈ runningSums prev ds, prev ≤ c
  | [], _ => by simp [runningSums]
  | d :: ds, prev => by
    obtain ⟨h1, h2⟩ := runningSums_sorted ds (prev + d)
    rw [runningSums, List.pairwise_cons]
    refine ⟨⟨h2, h1⟩, fun c hc => ?_⟩
    rcases List.mem_cons.1 hc with rfl | hc
    · omega
    · have := h2 c hc; omega

theorem readsAs_sorted {bs L : List Nat} (h : ReadsAs bs L) : L.Pairwise (· ≤ ·) := by
  obtain ⟨gs, _, _, rfl, _⟩ := h
  exact (runningSums_sorted _ 0).1

theorem length_runningSums : ∀ (ds : List Nat) (prev : Nat), (runningSums prev ds).length = ds.length
  | [], _ => rfl
  | d :: ds, prev => by rw [runningSums, List.length_cons, length_runningSums ds, List.length_cons]

theorem readsAs_length {bs L : List Nat} (h : ReadsAs bs L) : L.length ≤ bs.length := by
  obtain ⟨gs, rfl, h2, rfl, _⟩ := h
  rw [length_runningSums, List.length_map]
  have : ∀ gs : List (List Nat), (∀ g ∈ gs, IsGroup g) → gs.length ≤ gs.flatten.length := by
    intro gs
    induction gs with
    | nil => simp
    | cons g gs ih =>
      intro h
      obtain ⟨_, init, last, rfl, _⟩ := h g (by simp)
      have := ih (fun g' h' => h g' (by simp [h']))
      simp only [List.length_cons, List.flatten_cons, List.length_append, List.length_nil]
      omega
  exact this gs h2

end DifIntVec
end HLL
