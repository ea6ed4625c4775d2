import Verif.Proofs.Collisions
import Verif.Proofs.SetMachine
import Verif.Proofs.Worst

/-!
# Histories that fill or crowd the registers

Two families of hash sets whose sparse codes and registers are known exactly: one hash of rank 1 in
each of the first registers (`spread`), and as many hashes as possible in as few registers as possible
(`crowd`).  They are used to show that bounds on `count` cannot be improved.
-/

namespace HLL
open Spec F64

/-- Size of the encoding of a sequence that grows slowly: one byte each. -/
theorem gapsSize_slow {f : Nat → Nat} (h : ∀ j, f (j + 1) - f j < 128) : ∀ (n s : Nat),
    gapsSize (f s) ((List.range' (s + 1) n).map f) = n
  | 0, _ => rfl
  | n + 1, s => by
    rw [List.range'_succ, List.map_cons, gapsSize, gapsSize_slow h n (s + 1), varLen, if_pos (h s)]
    omega

/-- Size of the encoding of a sequence that grows fast: at least two bytes each. -/
theorem gapsSize_fast {f : Nat → Nat} (h : ∀ j, f j + 128 ≤ f (j + 1)) : ∀ (n s : Nat),
    2 * n ≤ gapsSize (f s) ((List.range' (s + 1) n).map f)
  | 0, _ => by simp
  | n + 1, s => by
    rw [List.range'_succ, List.map_cons, gapsSize]
    have h1 := gapsSize_fast h n (s + 1)
    have h2 : 2 ≤ varLen (f (s + 1) - f s) := by
      rw [varLen, if_neg (by have := h s; omega)]
      have := varLen_pos ((f (s + 1) - f s) / 128)
      omega
    omega

theorem sort_image_range {f : Nat → Nat} (h : StrictMono f) (n : Nat) :
    ((Finset.range n).image f).sort (· ≤ ·) = (List.range n).map f := by
  refine (eq_sort_of_pairwise ?_ ?_).symm
  · rw [List.pairwise_map]
    exact List.pairwise_lt_range.imp fun hab => h hab
  · intro c; simp

theorem encSize_slow {f : Nat → Nat} (hm : StrictMono f) (h0 : f 0 < 128)
    (h : ∀ j, f (j + 1) - f j < 128) (n : Nat) : encSize ((Finset.range n).image f) = n := by
  rw [encSize, sort_image_range hm]
  cases n with
  | zero => rfl
  | succ n =>
    rw [List.range_eq_range', List.range'_succ, List.map_cons, gapsSize, gapsSize_slow h n 0, Nat.sub_zero,
      varLen, if_pos h0]
    omega

theorem encSize_fast {f : Nat → Nat} (h : ∀ j, f j + 128 ≤ f (j + 1)) (n : Nat) :
    2 * n ≤ encSize ((Finset.range (n + 1)).image f) := by
  have hm : StrictMono f := strictMono_nat_of_lt_succ fun j => by have := h j; omega
  rw [encSize, sort_image_range hm, List.range_eq_range', List.range'_succ, List.map_cons, gapsSize]
  have := gapsSize_fast h n 0
  simp only [zero_add] at this ⊢
  omega

/-- The hashes of one register have at most `2^(25-p) + 39` codes. -/
theorem codes_le_buckets {p : Nat} (hp : p ≤ 18) (S : Finset Nat) :
    (codes p S).card ≤ (S.image (bucket 64 p)).card * (2 ^ (25 - p) + 39) := by
  have hq : (1 : ℕ) ≤ 2 ^ (25 - p) := Nat.one_le_two_pow
  have hsub : codes p S ⊆ (S.image (bucket 64 p) ×ˢ Finset.range (2 ^ (25 - p) + 39)).image
      (fun x => if x.2 < 2 ^ (25 - p) - 1 then (2 ^ (25 - p) * x.1 + (x.2 + 1)) * 2
        else 2 ^ (25 - p) * x.1 * 128 + (x.2 + 2 - 2 ^ (25 - p)) * 2 + 1) := by
    intro c hc
    obtain ⟨h, hh, rfl⟩ := Finset.mem_image.1 hc
    have hb : bucket 64 p h = h / 2 ^ 39 / 2 ^ (25 - p) := by
      rw [bucket, Nat.div_div_eq_div_mul, ← pow_add]
      congr 2; omega
    have h1 := Nat.div_add_mod (h / 2 ^ 39) (2 ^ (25 - p))
    have h2 := Nat.mod_lt (h / 2 ^ 39) (Nat.two_pow_pos (25 - p))
    have h3 := firstOne_le 39 h
    have h4 : 1 ≤ firstOne 39 h := by rw [firstOne]; split <;> omega
    by_cases hi : h / 2 ^ 39 % 2 ^ (25 - p) = 0
    · have hc : code p h = h / 2 ^ 39 * 128 + firstOne 39 h * 2 + 1 := if_pos hi
      refine Finset.mem_image.2 ⟨(bucket 64 p h, firstOne 39 h + 2 ^ (25 - p) - 2), ?_, ?_⟩
      · rw [Finset.mem_product]
        exact ⟨Finset.mem_image_of_mem _ hh, Finset.mem_range.2 (by dsimp only; omega)⟩
      · dsimp only
        rw [hc, hb, if_neg (by omega)]
        rw [hi, Nat.add_zero] at h1
        rw [h1]
        congr 3
        omega
    · have hc : code p h = h / 2 ^ 39 * 2 := if_neg hi
      refine Finset.mem_image.2 ⟨(bucket 64 p h, h / 2 ^ 39 % 2 ^ (25 - p) - 1), ?_, ?_⟩
      · rw [Finset.mem_product]
        exact ⟨Finset.mem_image_of_mem _ hh, Finset.mem_range.2 (by dsimp only; omega)⟩
      · dsimp only
        rw [hc, hb, if_pos (by omega), Nat.sub_add_cancel (by omega), h1]
  refine (Finset.card_le_card hsub).trans (Finset.card_image_le.trans ?_)
  rw [Finset.card_product, Finset.card_range]

/-! ## One hash in each register -/

/-- The `v`-th hash of rank 1: it belongs to register `v`. -/
def spread (w p v : Nat) : Nat := v * 2 ^ (w - p) + 2 ^ (w - p - 1)

theorem spread_lt {w p v : Nat} (hp : p < w) (hv : v < 2 ^ p) : spread w p v < 2 ^ w := by
  have h1 : (2 : ℕ) ^ w = 2 ^ p * 2 ^ (w - p) := by rw [← pow_add]; congr 1; omega
  have h2 : (2 : ℕ) ^ (w - p - 1) < 2 ^ (w - p) := Nat.pow_lt_pow_right (by norm_num) (by omega)
  have h3 : (v + 1) * 2 ^ (w - p) ≤ 2 ^ p * 2 ^ (w - p) := Nat.mul_le_mul_right _ hv
  rw [h1, spread]
  rw [Nat.add_mul] at h3
  omega

theorem bucket_spread {w p v : Nat} (hp : p < w) : bucket w p (spread w p v) = v := by
  have h2 : (2 : ℕ) ^ (w - p - 1) < 2 ^ (w - p) := Nat.pow_lt_pow_right (by norm_num) (by omega)
  rw [bucket, spread, Nat.mul_comm, Nat.mul_add_div (by positivity), Nat.div_eq_of_lt h2, Nat.add_zero]

theorem rank_spread {w p v : Nat} (hp : p < w) : rank w p (spread w p v) = 1 := by
  obtain ⟨k, hk⟩ : ∃ k, w - p = k + 1 := ⟨w - p - 1, by omega⟩
  rw [rank, spread, hk, firstOne, if_pos]
  rw [Nat.add_sub_cancel, Nat.testBit_eq_decide_div_mod_eq, decide_eq_true_eq]
  rw [show v * 2 ^ (k + 1) + 2 ^ k = 2 ^ k * (2 * v + 1) by ring, Nat.mul_div_cancel_left _ (by positivity)]
  omega

theorem reg_spread {w p : Nat} (hp : p < w) (n j : Nat) :
    reg w p ((Finset.range n).image (spread w p)) j = if j < n then 1 else 0 := by
  rw [reg]
  split
  · next h =>
    apply le_antisymm
    · apply Finset.sup_le
      intro x hx
      obtain ⟨v, _, rfl⟩ := Finset.mem_image.1 (Finset.mem_filter.1 hx).1
      rw [rank_spread hp]
    · have : spread w p j ∈ ((Finset.range n).image (spread w p)).filter fun h => bucket w p h = j := by
        rw [Finset.mem_filter]
        exact ⟨Finset.mem_image_of_mem _ (Finset.mem_range.2 h), bucket_spread hp⟩
      have h2 := Finset.le_sup (f := rank w p) this
      rwa [rank_spread hp] at h2
  · next h =>
    rw [Finset.filter_eq_empty_iff.2, Finset.sup_empty]; rfl
    intro x hx
    obtain ⟨v, hv, rfl⟩ := Finset.mem_image.1 hx
    rw [bucket_spread hp]
    have := Finset.mem_range.1 hv
    omega

theorem regs_spread {w p n : Nat} (hp : p < w) (hn : n ≤ 2 ^ p) :
    regs w p ((Finset.range n).image (spread w p)) = List.replicate n 1 ++ List.replicate (2 ^ p - n) 0 := by
  apply List.ext_getElem
  · simp [regs, hn]
  · intro j h1 h2
    simp only [regs, List.getElem_map, List.getElem_range, reg_spread hp]
    rw [List.getElem_append]
    simp

theorem codes_spread {p : Nat} (hp : p ≤ 18) (n : Nat) :
    codes p ((Finset.range n).image (spread 64 p)) =
      (Finset.range n).image fun v => v * 2 ^ (26 - p) + 2 ^ (25 - p) := by
  rw [codes, Finset.image_image]
  apply Finset.image_congr
  intro v _
  obtain ⟨k, hk⟩ : ∃ k, p + k + 1 = 25 := ⟨24 - p, by omega⟩
  have e : spread 64 p v / 2 ^ 39 = v * 2 ^ (k + 1) + 2 ^ k := by
    rw [spread, show 64 - p - 1 = k + 39 by omega, show 64 - p = k + 1 + 39 by omega, pow_add, pow_add _ k 39,
      ← mul_assoc, ← add_mul, Nat.mul_div_cancel _ (by positivity)]
  have e2 : (v * 2 ^ (k + 1) + 2 ^ k) % 2 ^ (k + 1) = 2 ^ k := by
    rw [Nat.mul_comm, Nat.mul_add_mod, Nat.mod_eq_of_lt]
    exact Nat.pow_lt_pow_right (by norm_num) (by omega)
  simp only [Function.comp, code, e]
  rw [show 25 - p = k + 1 by omega, show 26 - p = k + 2 by omega, e2, if_neg (by positivity)]
  ring

/-! ## Many hashes in few registers -/

/-- The 25-bit prefixes `1, 2, …` without the multiples of `2^(25-p)`. -/
def dodge (p v : Nat) : Nat := v + v / (2 ^ (25 - p) - 1) + 1

/-- The hash with this prefix, followed by zeros. -/
def crowd (p v : Nat) : Nat := dodge p v * 2 ^ 39

theorem dodge_spec {p : Nat} (hp : p ≤ 18) (v : Nat) :
    dodge p v / 2 ^ (25 - p) = v / (2 ^ (25 - p) - 1) ∧ dodge p v % 2 ^ (25 - p) ≠ 0 := by
  have hq : (2 : ℕ) ^ 7 ≤ 2 ^ (25 - p) := Nat.pow_le_pow_right (by norm_num) (by omega)
  obtain ⟨q, hq'⟩ : ∃ q, 2 ^ (25 - p) = q + 1 := ⟨2 ^ (25 - p) - 1, by omega⟩
  rw [dodge, hq', Nat.add_sub_cancel]
  rw [hq'] at hq
  have h1 := Nat.div_add_mod v q
  have h2 := Nat.mod_lt v (show q > 0 by omega)
  have e : v + v / q + 1 = (q + 1) * (v / q) + (v % q + 1) := by
    rw [Nat.add_mul]; omega
  rw [e]
  constructor
  · have h3 : v % q + 1 < q + 1 := by omega
    rw [Nat.mul_add_div (by omega), Nat.div_eq_of_lt h3, Nat.add_zero]
  · rw [Nat.mul_add_mod, Nat.mod_eq_of_lt (by omega)]; omega

theorem dodge_step (p v : Nat) : dodge p v < dodge p (v + 1) ∧ dodge p (v + 1) ≤ dodge p v + 2 := by
  unfold dodge
  have h1 : v / (2 ^ (25 - p) - 1) ≤ (v + 1) / (2 ^ (25 - p) - 1) := Nat.div_le_div_right (by omega)
  have h2 : (v + 1) / (2 ^ (25 - p) - 1) ≤ v / (2 ^ (25 - p) - 1) + 1 := by
    rw [Nat.succ_div]; split <;> omega
  omega

theorem codes_crowd {p : Nat} (hp : p ≤ 18) (n : Nat) :
    codes p ((Finset.range n).image (crowd p)) = (Finset.range n).image fun v => dodge p v * 2 := by
  rw [codes, Finset.image_image]
  apply Finset.image_congr
  intro v _
  have e : crowd p v / 2 ^ 39 = dodge p v := Nat.mul_div_cancel _ (Nat.two_pow_pos 39)
  have hd := (dodge_spec hp v).2
  rw [← e] at hd
  have hc : code p (crowd p v) = crowd p v / 2 ^ 39 * 2 := if_neg hd
  rw [Function.comp_apply, hc, e]

theorem encSize_crowd {p : Nat} (hp : p ≤ 18) (n : Nat) :
    encSize (codes p ((Finset.range n).image (crowd p))) = n := by
  rw [codes_crowd hp]
  have h := dodge_step p
  apply encSize_slow
  · exact strictMono_nat_of_lt_succ fun j => by have := (h j).1; omega
  · simp [dodge]
  · intro j; have := (h j).2; omega

theorem card_codes_crowd {p : Nat} (hp : p ≤ 18) (n : Nat) :
    (codes p ((Finset.range n).image (crowd p))).card = n := by
  rw [codes_crowd hp, Finset.card_image_of_injective, Finset.card_range]
  refine StrictMono.injective (strictMono_nat_of_lt_succ fun j => ?_)
  have := (dodge_step p j).1
  omega

theorem buckets_crowd {p : Nat} (hp : p ≤ 18) (n : Nat) :
    (((Finset.range (n + 1)).image (crowd p)).image (bucket 64 p)).card ≤ n / (2 ^ (25 - p) - 1) + 1 := by
  rw [← Finset.card_range (n / (2 ^ (25 - p) - 1) + 1)]
  apply Finset.card_le_card
  intro x hx
  obtain ⟨_, hy, rfl⟩ := Finset.mem_image.1 hx
  obtain ⟨v, hv, rfl⟩ := Finset.mem_image.1 hy
  have hv' := Finset.mem_range.1 hv
  have e : bucket 64 p (crowd p v) = v / (2 ^ (25 - p) - 1) := by
    rw [← (dodge_spec hp v).1, bucket, crowd, show 64 - p = 39 + (25 - p) by omega, pow_add,
      ← Nat.div_div_eq_div_mul, Nat.mul_div_cancel _ (by positivity)]
  rw [e, Finset.mem_range, Nat.lt_succ_iff]
  exact Nat.div_le_div_right (by omega)

/-! ## As programs -/

/-- Create a sketch with hash function `f` and insert the values `0, …, n - 1`. -/
def feed (p : Nat) (f : Nat → Nat) (n : Nat) : List (Op Nat) :=
  .new p (fun v => BitVec.ofNat 64 (f v)) :: (List.range n).map (.insert .insert 0)

theorem feed_succ (p : Nat) (f : Nat → Nat) (n : Nat) :
    feed p f (n + 1) = feed p f n ++ [.insert .insert 0 n] := by
  rw [feed, feed, List.range_succ, List.map_append]; rfl

theorem contents_feed {w maxP p n : Nat} {f : Nat → Nat} (hw : w ≤ 64) (hp1 : 4 ≤ p) (hp2 : p ≤ maxP)
    (hf : ∀ v < n, f v < 2 ^ w) :
    (contents w maxP (feed p f n))[0]? =
      some ⟨fun v => BitVec.ofNat 64 (f v), p, (Finset.range n).image f⟩ := by
  have e : contents w maxP (feed p f n) =
      contentsFrom w maxP [⟨fun v => BitVec.ofNat 64 (f v), p, ∅⟩] ((List.range n).map (.insert .insert 0)) := by
    rw [feed, ← List.singleton_append, contents_append]
    congr 1
    simp [contents, contentsFrom, effect, hp1, hp2]
  rw [e, contentsFrom_inserts w maxP .insert 0 _ _ _ rfl]
  simp only [List.set_cons_zero, List.getElem?_cons_zero, Finset.empty_union]
  congr 2
  ext x
  simp only [List.mem_toFinset, List.mem_map, List.mem_range, Finset.mem_image, Finset.mem_range]
  have hv : ∀ v < n, (BitVec.ofNat 64 (f v)).toNat % 2 ^ w = f v := by
    intro v h
    have h1 := hf v h
    have h2 : (2 : ℕ) ^ w ≤ 2 ^ 64 := Nat.pow_le_pow_right (by norm_num) hw
    rw [BitVec.toNat_ofNat, Nat.mod_eq_of_lt (a := f v) (by omega), Nat.mod_eq_of_lt h1]
  constructor
  · rintro ⟨v, h1, h2⟩; exact ⟨v, h1, by rw [← h2, hv v h1]⟩
  · rintro ⟨v, h1, h2⟩; exact ⟨v, h1, by rw [← h2, hv v h1]⟩

end HLL
