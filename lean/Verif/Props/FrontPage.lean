import Verif.Proofs.SharpLower
import Verif.Props.StdError
import Verif.Props.LargeRange
import Verif.Props.Lifetime

/-!
# C77: the claim on the front page

`src/lib.rs:1-9`: HyperLogLog "can estimate cardinalities well beyond 10^9 with a typical accuracy of 2%
while using memory of 1.5 kilobytes".  The size of 1.5 kilobytes is that of precision 11.  For
`HyperLogLogPlus` the standard error at precision 11 is between 2.04 % and 2.49 %, up to `2^59` values,
in 1640 bytes.  For `HyperLogLogPF`, the original algorithm, the claim fails: beyond `1.5·10^9` values
the count is usually more than 7 % too large.
-/

namespace HLL
open Spec F64

variable {cfg : Cfg} {ln : F64 → F64} {ords : Nat → IterOrder × IterOrder} {p n N i : Nat}
  {ops : List (Op (Fin N))} {V : Finset (Fin N)}

/-- **C77**, the standard error of `HyperLogLogPlus::count` from both sides: run any program, with random
hashes.  If sketch `i` has precision `p ≥ 11` and received exactly the values `V`, and `n = |V|` is more
than `24 m` and at most `2^59`, then `count` on it always returns a number, and the root mean square of
its error is between `(0.98/√m - b) n` and `(1.07/√m + b) n` with `b = 0.00066 + 1.1/m`. -/
theorem C77_plus_standard_error (hln : LnSpec ln) (c : Serde.Codec (Fin N))
    (hs : ∀ h, Supported cfg c (ops.map (withHashes h)))
    (hV : (received 18 ops)[i]? = some (p, V)) (h1 : 11 ≤ p) (hn24 : 24 * 2 ^ p < V.card)
    (hn : V.card ≤ 2 ^ 59) :
    ∃ y : (Fin N → Fin (2 ^ 64)) → ℚ,
      (∀ h, later (Plus.api cfg ln c) ords (ops.map (withHashes h)) [.count i] =
        .ok [.count (fin (y h))]) ∧
      (0.98 / √(2 ^ p) - (0.00066 + 1.1 / 2 ^ p)) * V.card ≤
        √(mean fun h => ((y h : ℝ) - V.card) ^ 2) ∧
      √(mean fun h => ((y h : ℝ) - V.card) ^ 2) ≤
        (1.07 / √(2 ^ p) + (0.00066 + 1.1 / 2 ^ p)) * V.card := by
  have h2 := received_le hV
  obtain ⟨F, hF, hl⟩ := plus_variable (ords := ords) hln c hs hV (by omega)
  refine ⟨_, hl, ?_⟩
  rw [mean_restrict V 64 fun S => ((F S : ℝ) - V.card) ^ 2]
  exact ⟨sharp_square_ge hln cfg.search h1 h2 hn24 hn fun g => hF _,
    Real.sqrt_le_iff.2 ⟨by positivity,
      sharp_square hln cfg.search (by omega) h2 hn24 hn fun g => hF _⟩⟩

theorem sqrt_two_pow_eleven : 45.254 ≤ √((2 : ℝ) ^ 11) ∧ √((2 : ℝ) ^ 11) ≤ 45.255 :=
  ⟨Real.le_sqrt_of_sq_le (by norm_num), Real.sqrt_le_iff.2 ⟨by norm_num, by norm_num⟩⟩

/-- **C77** at precision 11: the standard error is between 2.04 % and 2.49 % of the number of values, for
all numbers of values between 49153 and `2^59`. -/
theorem C77_plus_front_page (hln : LnSpec ln) (c : Serde.Codec (Fin N))
    (hs : ∀ h, Supported cfg c (ops.map (withHashes h)))
    (hV : (received 18 ops)[i]? = some (11, V)) (hn1 : 49152 < V.card) (hn : V.card ≤ 2 ^ 59) :
    ∃ y : (Fin N → Fin (2 ^ 64)) → ℚ,
      (∀ h, later (Plus.api cfg ln c) ords (ops.map (withHashes h)) [.count i] =
        .ok [.count (fin (y h))]) ∧
      0.0204 * V.card ≤ √(mean fun h => ((y h : ℝ) - V.card) ^ 2) ∧
      √(mean fun h => ((y h : ℝ) - V.card) ^ 2) ≤ 0.0249 * V.card := by
  obtain ⟨y, e1, e2, e3⟩ := C77_plus_standard_error (ords := ords) hln c hs hV le_rfl
    (by norm_num; exact hn1) hn
  obtain ⟨s1, s2⟩ := sqrt_two_pow_eleven
  have s0 : 0 < √((2 : ℝ) ^ 11) := Real.sqrt_pos.2 (by norm_num)
  refine ⟨y, e1, le_trans ?_ e2, e3.trans ?_⟩
  · gcongr
    have : 0.98 / 45.255 ≤ 0.98 / √((2 : ℝ) ^ 11) := by gcongr
    refine le_trans ?_ (sub_le_sub_right this _)
    norm_num
  · gcongr
    have : 1.07 / √((2 : ℝ) ^ 11) ≤ 1.07 / 45.254 := by gcongr
    refine le_trans (add_le_add_left this _) ?_
    norm_num

/-- A program that inserts the values `0, …, N - 1` into a fresh sketch of precision 11. -/
def fillEleven (N : Nat) : List (Op (Fin N)) :=
  .new 11 (fun _ => 0) :: (List.finRange N).map (.insert .insert 0)

theorem received_fillEleven (N : Nat) : (received 18 (fillEleven N))[0]? = some (11, Finset.univ) := by
  rw [received, fillEleven, List.foldl_cons,
    show receive 18 [] (.new 11 fun _ : Fin N => 0) = [(11, ∅)] by simp [receive],
    receive_inserts (i := 0) 18 .insert _ [(11, ∅)] (11, ∅) rfl]
  simp only [List.set_cons_zero, List.getElem?_cons_zero, Finset.empty_union]
  congr 2
  ext x
  simp

/-- An instance: ten billion values; the standard error is between 204 and 249 million. -/
example (hln : LnSpec ln) : ∃ y : (Fin 10000000000 → Fin (2 ^ 64)) → ℚ,
    (∀ h, later (Plus.api Cfg.debug64 ln (noCodec _)) ords ((fillEleven 10000000000).map (withHashes h))
      [.count 0] = .ok [.count (fin (y h))]) ∧
    204000000 ≤ √(mean fun h => ((y h : ℝ) - (10000000000 : ℕ)) ^ 2) ∧
    √(mean fun h => ((y h : ℝ) - (10000000000 : ℕ)) ^ 2) ≤ 249000000 := by
  have hcard : (Finset.univ : Finset (Fin 10000000000)).card = 10000000000 := by
    rw [Finset.card_univ, Fintype.card_fin]
  obtain ⟨y, e1, e2, e3⟩ := C77_plus_front_page (ords := ords) (cfg := Cfg.debug64) (ops := fillEleven _)
    (ln := ln) (V := Finset.univ)
    hln (noCodec _) (fun h => supported64 rfl _ (by simp [fillEleven, withHashes]))
    (received_fillEleven 10000000000) (by rw [hcard]; norm_num) (by rw [hcard]; norm_num)
  rw [hcard] at e2 e3
  exact ⟨y, e1, le_trans (by norm_num) e2, e3.trans (by norm_num)⟩

/-- **C77**, the memory: in any program, a dense `HyperLogLogPlus` of precision 11 holds its registers in
410 words of 32 bits, that is 1640 bytes, and nothing else besides them; a `HyperLogLogPF` of precision
11 in 342 words, that is 1368 bytes. -/
theorem C77_storage {I : Type} [DecidableEq I] {c : Serde.Codec I} {ops : List (Op I)}
    (hs : Supported cfg c ops) :
    (∀ s a, ReachPlus cfg ln c ords ops i s a → s.precision = 11 → ∀ r, s.registers = some r →
      r.buf.length = 410 ∧ s.tmpset = [] ∧ s.sparse.len = 0) ∧
    (∀ s a, ReachPF cfg ln c ords ops i s a → s.precision = 11 → s.registers.buf.length = 342) := by
  refine ⟨fun s a hr hp r hd => ?_, fun s a hr hp => ?_⟩
  · obtain ⟨-, -, h⟩ := C19_storage_bounded hs hr
    obtain ⟨h1, h2, h3⟩ := h r hd
    rw [hp] at h3
    exact ⟨h3, h1, h2⟩
  · obtain ⟨hb, -, -⟩ := hr.means hs
    have h := hb.rep.len_eq
    rw [show a.p = 11 from hb.prec.symm.trans hp] at h
    exact h

/-- The hypotheses are met: 2048 values with different prefixes make a sketch of precision 11 dense. -/
example : ∃ s a r, ReachPlus Cfg.debug64 ln (noCodec _) ords
    (insertAll 11 fun v : Fin 2048 => ⟨v.val * 2 ^ 39, by omega⟩) 0 s a ∧ s.precision = 11 ∧
    s.registers = some r ∧ r.buf.length = 410 := by
  have hs : Supported Cfg.debug64 (noCodec _)
      (insertAll 11 fun v : Fin 2048 => ⟨v.val * 2 ^ 39, by omega⟩) :=
    supported64 rfl _ (by simp [insertAll])
  obtain ⟨s, hr⟩ := reachPlus_exists (ln := ln) (ords := ords) (i := 0) hs
    (contents_insertAll (by norm_num) (by norm_num) _)
  have hp : s.precision = 11 := by
    obtain ⟨⟨hb, -⟩, -⟩ := hr.means hs
    exact hb.prec
  have hd := C64_many_values_are_dense hs hr (by
    have e : (hashSet 64 fun v : Fin 2048 => (⟨v.val * 2 ^ 39, by omega⟩ : Fin (2 ^ 64))).image (· / 2 ^ 39) =
        Finset.range 2048 := by
      ext x
      simp only [hashSet, Finset.mem_image, Finset.mem_univ, true_and, exists_exists_eq_and,
        Finset.mem_range]
      constructor
      · rintro ⟨v, rfl⟩; omega
      · intro hx; exact ⟨⟨x, hx⟩, by simp only; omega⟩
    simp only [e]
    norm_num)
  cases hreg : s.registers with
  | none => simp [Plus.isSparse, hreg] at hd
  | some r => exact ⟨s, _, r, hr, hp, hreg, ((C77_storage hs).1 s _ hr hp r hreg).1⟩

/-- **C77**, refuted for `HyperLogLogPF`: insert between `1.5·10^9` and `2^31` values with random hashes
into a fresh sketch of any precision from 11 on.  With probability at least 62 % the count is more than
7 % too large. -/
theorem C77_pf_refuted (hln : LnSpec ln) (hcfg : cfg.usizeBits = 64)
    (c : Serde.Codec (Fin n)) (h1 : 11 ≤ p) (h2 : p ≤ 16) (hn1 : 1500000000 ≤ n) (hn2 : n ≤ 2 ^ 31) :
    fraction (fun h : Fin n → Fin (2 ^ 64) => ¬ ∃ y : ℚ,
        later (PF.api cfg ln c) ords (insertAll p h) [.count 0] = .ok [.count (fin y)] ∧
        1.07 * (n : ℝ) ≤ y) ≤ 0.38 := by
  have hm : (2 : ℝ) ^ 11 ≤ 2 ^ p := pow_le_pow_right₀ (by norm_num) h1
  have hw1 : 1.1 / (2 : ℝ) ^ p ≤ 1.1 / 2 ^ 11 := by gcongr
  have hw4 : 4 / (2 : ℝ) ^ p ≤ 4 / 2 ^ 11 := by gcongr
  have hn' : (1500000000 : ℝ) ≤ n := by exact_mod_cast hn1
  have key := C53_pf_overestimates (ords := ords) hln hcfg c (by omega : 4 ≤ p) h2 (δ := 0.04) (by norm_num)
    (by norm_num at hw1 ⊢; linarith) (by norm_num; linarith) hn2
  refine le_trans (fraction_mono fun h hh => ?_) (key.trans ?_)
  · rintro ⟨y, e1, e2⟩
    refine hh ⟨y, e1, le_trans ?_ e2⟩
    gcongr
    have : (1500000000 : ℝ) / 2 ^ 32 ≤ n / 2 ^ 32 := by gcongr
    norm_num at this hw1 ⊢
    linarith
  · calc (1.12 + 4 / (2 : ℝ) ^ p) * (1 + 0.04) ^ 2 / (2 ^ p * 0.04 ^ 2)
        ≤ (1.12 + 4 / (2 : ℝ) ^ 11) * (1 + 0.04) ^ 2 / (2 ^ 11 * 0.04 ^ 2) := by gcongr
      _ ≤ 0.38 := by norm_num

/-- An instance: two billion values; the count is above 2.14 billion with probability at least 62 %. -/
example (hln : LnSpec ln) : fraction (fun h : Fin 2000000000 → Fin (2 ^ 64) => ¬ ∃ y : ℚ,
    later (PF.api Cfg.debug64 ln (noCodec _)) ords (insertAll 11 h) [.count 0] = .ok [.count (fin y)] ∧
    (2140000000 : ℝ) ≤ y) ≤ 0.38 := by
  have h := C77_pf_refuted (ords := ords) (ln := ln) (cfg := Cfg.debug64) (n := 2000000000) (p := 11) hln rfl
    (noCodec _) (by norm_num) (by norm_num) (by norm_num) (by norm_num)
  refine le_trans (fraction_mono fun x hx => ?_) h
  rintro ⟨y, e1, e2⟩
  exact hx ⟨y, e1, le_trans (by push_cast; norm_num) e2⟩

end HLL
