import Verif.Props.Lifetime
import Verif.Props.Regimes
import Verif.Proofs.Chains

/-!
# C84: what a sparse sketch says about membership and inclusion

Whether a value was inserted before, or all values of one sketch into another, can be asked by inserting or
merging and looking at the count.  A sparse `HyperLogLogPlus` answers yes exactly if the codes are known.
-/

namespace HLL
open Spec F64

variable {I : Type} {cfg : Cfg} {ln : F64 → F64} {c : Serde.Codec I}
  {ords : Nat → IterOrder × IterOrder} {ops ops' : List (Op I)} {i j : Nat}

/-- Sparse counts of a set of hashes and a larger one: equal if the codes are the same, otherwise more than 1/2
apart. -/
theorem sparse_counts (hln : LnSpec ln) {bias : Nat → F64 → F64} {p : Nat} (hp2 : p ≤ 18) {S T : Finset Nat}
    (hST : S ⊆ T) (hT : fitsSparse p T) :
    ∃ x y : ℚ, plusCount ln bias p S = fin x ∧ plusCount ln bias p T = fin y ∧
      (codes p T ⊆ codes p S → y = x) ∧ (¬ codes p T ⊆ codes p S → x + 1 / 2 < y) := by
  have hsub : codes p S ⊆ codes p T := Finset.image_subset_image hST
  have h18 : 2 ^ p ≤ 2 ^ 18 := Nat.pow_le_pow_right (by norm_num) hp2
  have hc : (codes p T).card ≤ 2 ^ 18 := by
    have h1 := card_le_encSize (codes p T)
    have h2 : encSize (codes p T) ≤ 4 * 2 ^ p / 5 := hT
    omega
  rw [plusCount, plusCount, if_pos (fitsSparse_mono hST hT), if_pos hT]
  by_cases h : codes p T ⊆ codes p S
  · have e : codes p T = codes p S := le_antisymm h hsub
    obtain ⟨y, _, h1, _⟩ := linear_le hln (m := 2 ^ 24) (V := 2 ^ 24 - (codes p S).card)
      (V' := 2 ^ 24 - (codes p S).card) (by rw [← e]; omega) le_rfl (by omega) le_rfl
    exact ⟨y, y, h1, by rw [e, h1], fun _ => rfl, fun hn => absurd h hn⟩
  · have hlt : (codes p S).card < (codes p T).card :=
      Finset.card_lt_card ⟨hsub, h⟩
    obtain ⟨x, y, h1, h2, h3⟩ := linear_lt hln (m := 2 ^ 24) (V := 2 ^ 24 - (codes p S).card)
      (V' := 2 ^ 24 - (codes p T).card) (by omega) (by omega) (by omega) le_rfl
    exact ⟨x, y, h1, h2, fun hn => absurd hn h, fun _ => h3⟩

/-- **C84.** Insert a value into a `HyperLogLogPlus`, in any program, such that the sketch is sparse afterwards.
The count stays as it is exactly if the code of the hash is the code of a hash seen before; otherwise it grows
by more than 1/2. -/
theorem C84_plus_insert (hln : LnSpec ln) (h : Supported cfg c ops) {a : Abs I}
    (ha : (contents 64 18 ops)[i]? = some a) (k : InsertKind) (v : I)
    (hf : fitsSparse a.p (insert (a.builder v).toNat a.S)) :
    ∃ x y : ℚ, later (Plus.api cfg ln c) ords ops [.count i] = .ok [.count (fin x)] ∧
      later (Plus.api cfg ln c) ords (ops ++ [.insert k i v]) [.count i] = .ok [.count (fin y)] ∧
      (y = x ↔ ∃ u ∈ a.S, code a.p u = code a.p (a.builder v).toNat) ∧ (y ≠ x → x + 1 / 2 < y) := by
  obtain ⟨_, hp2, _⟩ := contents_valid 64 18 ops a (mem_of_get ha)
  have hb : (contents 64 18 (ops ++ [.insert k i v]))[i]? =
      some { a with S := insert (a.builder v).toNat a.S } := by
    rw [contents_append, contentsFrom, List.foldl_cons, List.foldl_nil]
    simp only [effect, ha]
    rw [List.getElem?_set_self (List.getElem?_eq_some_iff.1 ha).1,
      Nat.mod_eq_of_lt (a.builder v).isLt]
  obtain ⟨x, y, h1, h2, h3, h4⟩ := sparse_counts hln (bias := Plus.biasOf cfg.search) hp2
    (Finset.subset_insert _ a.S) hf
  have hiff : codes a.p (insert (a.builder v).toNat a.S) ⊆ codes a.p a.S ↔
      ∃ u ∈ a.S, code a.p u = code a.p (a.builder v).toNat := by
    rw [codes, Finset.image_insert, Finset.insert_subset_iff, and_iff_left (by exact subset_rfl)]
    exact Finset.mem_image
  refine ⟨x, y, by rw [plus_count_val h ha, h1], ?_, ?_, fun hne => h4 fun hc => hne (h3 hc)⟩
  · rw [plus_count_val (h.append (by simp) (by simp)) hb, h2]
  · rw [← hiff]
    refine ⟨fun e => ?_, h3⟩
    by_contra hn
    have := h4 hn
    linarith

/-- **C84.** Merge sketch `j` into sketch `i`, in any program, such that the result is sparse.  The count of sketch
`i` stays as it is exactly if all codes of sketch `j` are codes of sketch `i`; otherwise it grows by more
than 1/2. -/
theorem C84_plus_merge (hln : LnSpec ln) (h : Supported cfg c ops) {a b : Abs I}
    (ha : (contents 64 18 ops)[i]? = some a) (hb : (contents 64 18 ops)[j]? = some b) (hp : a.p = b.p)
    (hf : fitsSparse a.p (a.S ∪ b.S)) :
    ∃ x y : ℚ, later (Plus.api cfg ln c) ords ops [.count i] = .ok [.count (fin x)] ∧
      later (Plus.api cfg ln c) ords (ops ++ [.merge i j]) [.count i] = .ok [.count (fin y)] ∧
      (y = x ↔ ∀ u ∈ b.S, ∃ v ∈ a.S, code a.p v = code a.p u) ∧ (y ≠ x → x + 1 / 2 < y) := by
  obtain ⟨_, hp2, _⟩ := contents_valid 64 18 ops a (mem_of_get ha)
  have hm : (contents 64 18 (ops ++ [.merge i j]))[i]? = some { a with S := a.S ∪ b.S } := by
    rw [contents_append, contentsFrom, List.foldl_cons, List.foldl_nil]
    simp only [effect, ha, hb, if_pos hp]
    rw [List.getElem?_set_self (List.getElem?_eq_some_iff.1 ha).1]
  obtain ⟨x, y, h1, h2, h3, h4⟩ := sparse_counts hln (bias := Plus.biasOf cfg.search) hp2
    (Finset.subset_union_left (s₁ := a.S) (s₂ := b.S)) hf
  have hiff : codes a.p (a.S ∪ b.S) ⊆ codes a.p a.S ↔
      ∀ u ∈ b.S, ∃ v ∈ a.S, code a.p v = code a.p u := by
    rw [codes_union, Finset.union_subset_iff, and_iff_right (by exact subset_rfl)]
    constructor
    · intro hc u hu
      exact Finset.mem_image.1 (hc (Finset.mem_image_of_mem _ hu))
    · intro hc z hz
      obtain ⟨u, hu, rfl⟩ := Finset.mem_image.1 hz
      exact Finset.mem_image.2 (hc u hu)
  refine ⟨x, y, by rw [plus_count_val h ha, h1], ?_, ?_, fun hne => h4 fun hc => hne (h3 hc)⟩
  · rw [plus_count_val (h.append (by simp) (by simp)) hm, h2]
  · rw [← hiff]
    refine ⟨fun e => ?_, h3⟩
    by_contra hn
    have := h4 hn
    linarith

/-! ### Random hashes -/

variable {N p : Nat} {prog : List (Op (Fin N))} {A B : Finset (Fin N)}

/-- The size conditions of C64, for `n` values. -/
def surelySparse (p n : Nat) : Prop :=
  5 * n ≤ 4 * 2 ^ p / 5 ∨ 4 * n + 15 ≤ 4 * 2 ^ p / 5 ∨ 3 * n + 2047 ≤ 4 * 2 ^ p / 5

instance (p n : Nat) : Decidable (surelySparse p n) := by unfold surelySparse; infer_instance

theorem surelySparse.fits {n : Nat} (h : surelySparse p n) {S : Finset Nat} (hS : ∀ x ∈ S, x < 2 ^ 64)
    (hn : S.card ≤ n) : fitsSparse p S := by
  have := encSize_codes_le (p := p) hS
  unfold surelySparse at h
  unfold fitsSparse capacity
  omega

/-- A random hash has the code of one of `n` others with probability at most `n/2^25`. -/
theorem fraction_known (A : Finset (Fin N)) {v : Fin N} (hv : v ∉ A) :
    fraction (fun h : Fin N → Fin (2 ^ 64) => ∃ u ∈ A, code p (h u) = code p (h v)) ≤ A.card * (1 / 2 ^ 25) := by
  classical
  refine fraction_exists A (fun u h => code p (h u) = code p (h v)) fun u hu => ?_
  have hne : u ≠ v := fun e => hv (e ▸ hu)
  refine (fraction_mono fun h hh => prefix_of_code hh).trans ?_
  have h1 := card_collide hne
  have h2 : (2 ^ 25 : ℝ) * ((Finset.univ.filter fun h : Fin N → Fin (2 ^ 64) =>
      (h u : Nat) / 2 ^ 39 = (h v : Nat) / 2 ^ 39).card : ℝ) = (2 ^ 64) ^ N := by exact_mod_cast h1
  unfold fraction
  rw [Fintype.card_fun, Fintype.card_fin, Fintype.card_fin, div_le_iff₀ (by positivity)]
  rw [Nat.cast_pow, Nat.cast_pow, Nat.cast_ofNat, ← h2]
  have e : ∀ z : ℝ, z ≤ 1 / 2 ^ 25 * (2 ^ 25 * z) := fun z => le_of_eq (by ring)
  refine le_trans (le_of_eq ?_) (e _)
  congr!

theorem meaning_get {w maxP : Nat} (h : Fin N → Fin (2 ^ 64)) (hA : (received maxP prog)[i]? = some (p, A)) :
    (contents w maxP (prog.map (withHashes h)))[i]? = some (meaning w h (p, A)) := by
  rw [contents_meaning, List.getElem?_map, hA]; rfl

/-- **C84**, membership.  Let sketch `i` of a program be a `HyperLogLogPlus` that received the `n` values `A`, few
enough to be sparse for all hashes, also with one more value.  Inserting a value of `A` again never changes the count.
Inserting another value increases it by more than 1/2, except with probability `n/2^25`. -/
theorem C84_plus_member (hln : LnSpec ln) (c : Serde.Codec (Fin N))
    (hs : ∀ h, Supported cfg c (prog.map (withHashes h))) (hA : (received 18 prog)[i]? = some (p, A))
    (hn : surelySparse p (A.card + 1)) (k : InsertKind) (v : Fin N) :
    (v ∈ A → ∀ h, later (Plus.api cfg ln c) ords (prog.map (withHashes h) ++ [.insert k i v]) [.count i] =
      later (Plus.api cfg ln c) ords (prog.map (withHashes h)) [.count i]) ∧
    (v ∉ A → fraction (fun h : Fin N → Fin (2 ^ 64) => ¬ ∃ x y : ℚ,
      later (Plus.api cfg ln c) ords (prog.map (withHashes h)) [.count i] = .ok [.count (fin x)] ∧
      later (Plus.api cfg ln c) ords (prog.map (withHashes h) ++ [.insert k i v]) [.count i] =
        .ok [.count (fin y)] ∧ x + 1 / 2 < y) ≤ A.card / 2 ^ 25) := by
  have hb : ∀ h : Fin N → Fin (2 ^ 64), ((meaning 64 h (p, A)).builder v).toNat = h v := fun h => by
    simp [meaning, builderOf]
  have hmod : ∀ (h : Fin N → Fin (2 ^ 64)) u, (h u : Nat) % 2 ^ 64 = h u := fun h u => Nat.mod_eq_of_lt (h u).2
  have key := fun h => C84_plus_insert (ords := ords) hln (hs h) (meaning_get h hA) k v (by
    refine hn.fits ?_ ?_
    · intro x hx
      rcases Finset.mem_insert.1 hx with rfl | hx
      · exact ((meaning 64 h (p, A)).builder v).isLt
      · obtain ⟨u, _, rfl⟩ := Finset.mem_image.1 hx
        exact Nat.mod_lt _ (by norm_num)
    · exact (Finset.card_insert_le _ _).trans (Nat.succ_le_succ Finset.card_image_le))
  have hex : ∀ h : Fin N → Fin (2 ^ 64), (∃ u ∈ (meaning 64 h (p, A)).S,
      code (meaning 64 h (p, A)).p u = code (meaning 64 h (p, A)).p ((meaning 64 h (p, A)).builder v).toNat) ↔
      ∃ u ∈ A, code p (h u) = code p (h v) := by
    intro h
    rw [hb]
    simp only [meaning, Finset.mem_image, exists_exists_and_eq_and, hmod]
  constructor
  · intro hv h
    obtain ⟨x, y, h1, h2, h3, _⟩ := key h
    rw [h1, h2, h3.2 ((hex h).2 ⟨v, hv, rfl⟩)]
  · intro hv
    refine (fraction_mono fun h hh => ?_).trans ((fraction_known (p := p) A hv).trans (le_of_eq (by ring)))
    obtain ⟨x, y, h1, h2, h3, h4⟩ := key h
    by_contra hc
    exact hh ⟨x, y, h1, h2, h4 fun e => hc ((hex h).1 (h3.1 e))⟩

/-- **C84**, inclusion.  Let sketches `i` and `j` of a program be of type `HyperLogLogPlus` and have received the
values `A` and `B`, few enough for the union to be sparse for all hashes.  Merging sketch `j` into sketch `i` leaves the
count of sketch `i` as it is if `B ⊆ A`.  Otherwise it increases the count by more than 1/2, except with probability
`n/2^25`, `n` the size of `A`. -/
theorem C84_plus_inclusion (hln : LnSpec ln) (c : Serde.Codec (Fin N))
    (hs : ∀ h, Supported cfg c (prog.map (withHashes h))) (hA : (received 18 prog)[i]? = some (p, A))
    (hB : (received 18 prog)[j]? = some (p, B)) (hn : surelySparse p (A ∪ B).card) :
    (B ⊆ A → ∀ h, later (Plus.api cfg ln c) ords (prog.map (withHashes h) ++ [.merge i j]) [.count i] =
      later (Plus.api cfg ln c) ords (prog.map (withHashes h)) [.count i]) ∧
    (¬ B ⊆ A → fraction (fun h : Fin N → Fin (2 ^ 64) => ¬ ∃ x y : ℚ,
      later (Plus.api cfg ln c) ords (prog.map (withHashes h)) [.count i] = .ok [.count (fin x)] ∧
      later (Plus.api cfg ln c) ords (prog.map (withHashes h) ++ [.merge i j]) [.count i] =
        .ok [.count (fin y)] ∧ x + 1 / 2 < y) ≤ A.card / 2 ^ 25) := by
  have hmod : ∀ (h : Fin N → Fin (2 ^ 64)) u, (h u : Nat) % 2 ^ 64 = h u := fun h u => Nat.mod_eq_of_lt (h u).2
  have key := fun h => C84_plus_merge (ords := ords) hln (hs h) (meaning_get h hA) (meaning_get h hB) rfl (by
    have e : (meaning 64 h (p, A)).S ∪ (meaning 64 h (p, B)).S =
        (A ∪ B).image fun v => (h v : Nat) % 2 ^ 64 := by rw [Finset.image_union]; rfl
    rw [e]
    refine hn.fits ?_ Finset.card_image_le
    intro x hx
    obtain ⟨u, _, rfl⟩ := Finset.mem_image.1 hx
    exact Nat.mod_lt _ (by norm_num))
  have hex : ∀ h : Fin N → Fin (2 ^ 64), (∀ u ∈ (meaning 64 h (p, B)).S, ∃ v ∈ (meaning 64 h (p, A)).S,
      code (meaning 64 h (p, A)).p v = code (meaning 64 h (p, A)).p u) ↔
      ∀ u ∈ B, ∃ v ∈ A, code p (h v) = code p (h u) := by
    intro h
    simp only [meaning, Finset.mem_image, exists_exists_and_eq_and, forall_exists_index, and_imp,
      forall_apply_eq_imp_iff₂, hmod]
  constructor
  · intro hBA h
    obtain ⟨x, y, h1, h2, h3, _⟩ := key h
    rw [h1, h2, h3.2 ((hex h).2 fun u hu => ⟨u, hBA hu, rfl⟩)]
  · intro hBA
    obtain ⟨v, hvB, hvA⟩ := Finset.not_subset.1 hBA
    refine (fraction_mono fun h hh => ?_).trans ((fraction_known (p := p) A hvA).trans (le_of_eq (by ring)))
    obtain ⟨x, y, h1, h2, h3, h4⟩ := key h
    by_contra hc
    exact hh ⟨x, y, h1, h2, h4 fun e => hc ((hex h).1 (h3.1 e) v hvB)⟩

/-! ### Instances -/

/-- Two sketches of precision 14, the first with the values 0, 1, 2, the second with 1, 3. -/
def demoMember : List (Op (Fin 5)) :=
  [.new 14 fun _ => 0, .new 14 fun _ => 0, .insert .insert 0 0, .insert .add 0 1, .insert .insertAny 0 2,
    .insert .insert 1 1, .insert .insert 1 3]

theorem demoMember_supported (h : Fin 5 → Fin (2 ^ 64)) :
    Supported Cfg.debug64 (noCodec _) (demoMember.map (withHashes h)) :=
  supported64 rfl _ (by simp [demoMember, withHashes])

theorem demoMember_received : (received 18 demoMember)[0]? = some (14, {0, 1, 2}) ∧
    (received 18 demoMember)[1]? = some (14, {1, 3}) := by decide +kernel

/-- Value 1 was inserted before; value 4 was not. -/
example (hln : LnSpec ln) :
    (∀ h, later (Plus.api Cfg.debug64 ln (noCodec _)) ords (demoMember.map (withHashes h) ++ [.insert .add 0 1])
      [.count 0] = later (Plus.api Cfg.debug64 ln (noCodec _)) ords (demoMember.map (withHashes h)) [.count 0]) ∧
    fraction (fun h : Fin 5 → Fin (2 ^ 64) => ¬ ∃ x y : ℚ,
      later (Plus.api Cfg.debug64 ln (noCodec _)) ords (demoMember.map (withHashes h)) [.count 0] =
        .ok [.count (fin x)] ∧
      later (Plus.api Cfg.debug64 ln (noCodec _)) ords (demoMember.map (withHashes h) ++ [.insert .add 0 4])
        [.count 0] = .ok [.count (fin y)] ∧ x + 1 / 2 < y) ≤ 3 / 2 ^ 25 :=
  ⟨(C84_plus_member hln _ demoMember_supported demoMember_received.1 (by decide +kernel) .add 1).1 (by decide),
    (C84_plus_member hln _ demoMember_supported demoMember_received.1 (by decide +kernel) .add 4).2 (by decide)⟩

/-- The second sketch has a value that the first does not have. -/
example (hln : LnSpec ln) :
    fraction (fun h : Fin 5 → Fin (2 ^ 64) => ¬ ∃ x y : ℚ,
      later (Plus.api Cfg.debug64 ln (noCodec _)) ords (demoMember.map (withHashes h)) [.count 0] =
        .ok [.count (fin x)] ∧
      later (Plus.api Cfg.debug64 ln (noCodec _)) ords (demoMember.map (withHashes h) ++ [.merge 0 1])
        [.count 0] = .ok [.count (fin y)] ∧ x + 1 / 2 < y) ≤ 3 / 2 ^ 25 :=
  (C84_plus_inclusion hln _ demoMember_supported demoMember_received.1 demoMember_received.2
    (by decide +kernel)).2 (by decide)

/-- Hypotheses of `C84_plus_insert` and `C84_plus_merge`. -/
example : ∃ a b, (contents 64 18 (demoMember.map (withHashes fun v => ⟨2 ^ 50 * v + 7, by have := v.2; omega⟩)))[0]? =
      some a ∧
    (contents 64 18 (demoMember.map (withHashes fun v => ⟨2 ^ 50 * v + 7, by have := v.2; omega⟩)))[1]? = some b ∧
    a.p = b.p ∧ fitsSparse a.p (insert (a.builder 4).toNat a.S) ∧ fitsSparse a.p (a.S ∪ b.S) :=
  ⟨_, _, rfl, rfl, rfl,
    surelySparse.fits (n := 4) (by decide +kernel) (by decide +kernel) (by decide +kernel),
    surelySparse.fits (n := 4) (by decide +kernel) (by decide +kernel) (by decide +kernel)⟩

/-- The size condition: 11000 values at precision 16. -/
example : surelySparse 16 11000 := by decide +kernel

end HLL
