import Verif.SpecNumbers
import Verif.Proofs.Evaluation

/-! # What the reader of numbers accepts -/

namespace HLL.Evl
open Spec

theorem digit_eq_some {c : Char} {d : Nat} : digit c = some d ↔ d < 10 ∧ c = Nat.digitChar d := by
  unfold digit
  constructor
  · intro h
    split at h
    · rename_i hc
      simp only [Char.isDigit, Bool.and_eq_true, decide_eq_true_eq, UInt32.le_iff_toNat_le] at hc
      obtain ⟨h1, h2⟩ := hc
      have h1' : 48 ≤ c.toNat := h1
      have h2' : c.toNat ≤ 57 := h2
      obtain rfl : c.toNat - 48 = d := Option.some.inj h
      refine ⟨by omega, ?_⟩
      have : c = Char.ofNat c.toNat := (Char.ofNat_toNat c).symm
      rw [this]
      generalize c.toNat = k at *
      interval_cases k <;> decide
    · cases h
  · rintro ⟨h, rfl⟩
    interval_cases d <;> decide

theorem parseDigits_iff {w : Nat} : ∀ {t : Text} {acc n : Nat}, acc < 2 ^ w →
    (parseDigits w acc t = some n ↔ ∃ ds : List Nat, (∀ d ∈ ds, d < 10) ∧ t = ds.map Nat.digitChar ∧
      n = acc * 10 ^ ds.length + Nat.ofDigits 10 ds.reverse ∧ n < 2 ^ w)
  | [], acc, n, ha => by
    rw [parseDigits]
    constructor
    · intro h
      obtain rfl := Option.some.inj h
      exact ⟨[], by simp, rfl, by simp, ha⟩
    · rintro ⟨ds, -, h1, h2, -⟩
      obtain rfl : ds = [] := by simpa using h1.symm
      simp [h2]
  | c :: t, acc, n, ha => by
    rw [parseDigits]
    have hval : ∀ (d : Nat) (ds : List Nat), acc * 10 ^ (d :: ds).length + Nat.ofDigits 10 (d :: ds).reverse =
        (acc * 10 + d) * 10 ^ ds.length + Nat.ofDigits 10 ds.reverse := by
      intro d ds
      rw [List.reverse_cons, Nat.ofDigits_append, Nat.ofDigits_singleton, List.length_reverse, List.length_cons]
      ring
    constructor
    · intro h
      cases hd : digit c with
      | none => rw [hd] at h; cases h
      | some d =>
        obtain ⟨h1, rfl⟩ := digit_eq_some.1 hd
        rw [hd] at h
        simp only [Option.bind_eq_bind, Option.bind_some] at h
        split at h
        · rename_i hlt
          obtain ⟨ds, k1, k2, k3, k4⟩ := (parseDigits_iff hlt).1 h
          refine ⟨d :: ds, ?_, by rw [k2]; rfl, by rw [hval]; exact k3, k4⟩
          intro x hx
          rcases List.mem_cons.1 hx with rfl | hx
          · exact h1
          · exact k1 x hx
        · cases h
    · rintro ⟨ds, k1, k2, k3, k4⟩
      cases ds with
      | nil => cases k2
      | cons d ds =>
        rw [List.map_cons] at k2
        obtain ⟨rfl, rfl⟩ := List.cons.inj k2
        have hd : digit (Nat.digitChar d) = some d := digit_eq_some.2 ⟨k1 d (by simp), rfl⟩
        rw [hval] at k3
        have hlt : acc * 10 + d < 2 ^ w := by
          refine lt_of_le_of_lt ?_ k4
          rw [k3]
          exact le_trans (Nat.le_mul_of_pos_right _ (by positivity)) (Nat.le_add_right _ _)
        rw [hd]
        simp only [Option.bind_eq_bind, Option.bind_some, if_pos hlt]
        exact (parseDigits_iff hlt).2 ⟨ds, fun x hx => k1 x (by simp [hx]), rfl, k3, k4⟩

theorem digitChar_ne {d : Nat} (h : d < 10) : Nat.digitChar d ≠ '+' ∧ Nat.digitChar d ≠ '\n' ∧
    Nat.digitChar d ≠ '\r' := by
  interval_cases d <;> decide

/-- `parse` accepts exactly the numerals. -/
theorem parse_iff {w : Nat} {t : Text} {n : Nat} : parse w t = some n ↔ Numeral w t n := by
  have h0 : 0 < 2 ^ w := by positivity
  have key : ∀ (t : Text), parseDigits w 0 t = some n ∧ t ≠ [] ↔ ∃ ds : List Nat, ds ≠ [] ∧ (∀ d ∈ ds, d < 10) ∧
      t = ds.map Nat.digitChar ∧ n = Nat.ofDigits 10 ds.reverse ∧ n < 2 ^ w := by
    intro t
    rw [parseDigits_iff h0]
    constructor
    · rintro ⟨⟨ds, k1, rfl, k3, k4⟩, h⟩
      exact ⟨ds, by rintro rfl; exact h rfl, k1, rfl, by simpa using k3, k4⟩
    · rintro ⟨ds, k0, k1, rfl, k3, k4⟩
      exact ⟨⟨ds, k1, rfl, by simpa using k3, k4⟩, by simpa using k0⟩
  unfold parse
  split
  · refine ⟨(fun h => by cases h), ?_⟩
    rintro ⟨ds, k0, -, h | h, -⟩
    · exact absurd (by simpa using h.symm) k0
    · cases h
  · refine ⟨(fun h => by cases h), ?_⟩
    rintro ⟨ds, k0, k1, h | h, -⟩
    · cases ds with
      | nil => exact absurd rfl k0
      | cons d ds => exact absurd (List.cons.inj h).1.symm (digitChar_ne (k1 d (by simp))).1
    · exact absurd (by simpa using h) k0
  · rename_i cs hcs
    constructor
    · intro h
      obtain ⟨ds, k0, k1, k2, k3⟩ := (key cs).1 ⟨h, by rintro rfl; exact hcs rfl⟩
      exact ⟨ds, k0, k1, .inr (by rw [k2]), k3⟩
    · rintro ⟨ds, k0, k1, h | h, k3⟩
      · cases ds with
        | nil => exact absurd rfl k0
        | cons d ds => exact absurd (List.cons.inj h).1.symm (digitChar_ne (k1 d (by simp))).1
      · exact ((key cs).2 ⟨ds, k0, k1, by simpa using h, k3⟩).1
  · rename_i hn _ hp
    constructor
    · intro h
      obtain ⟨ds, k0, k1, k2, k3⟩ := (key t).1 ⟨h, hn⟩
      exact ⟨ds, k0, k1, .inl k2, k3⟩
    · rintro ⟨ds, k0, k1, h | h, k3⟩
      · exact ((key t).2 ⟨ds, k0, k1, h, k3⟩).1
      · exact absurd h (hp _)

theorem Numeral.not_mem {w : Nat} {t : Text} {n : Nat} (h : Numeral w t n) : '\n' ∉ t ∧ '\r' ∉ t ∧ t ≠ [] := by
  obtain ⟨ds, k0, k1, k2, -⟩ := h
  have h1 : ∀ c ∈ ds.map Nat.digitChar, c ≠ '\n' ∧ c ≠ '\r' := by
    intro c hc
    obtain ⟨d, hd, rfl⟩ := List.mem_map.1 hc
    exact (digitChar_ne (k1 d hd)).2
  have h2 : ds.map Nat.digitChar ≠ [] := by simpa using k0
  generalize ds.map Nat.digitChar = l at *
  rcases k2 with rfl | rfl
  · exact ⟨fun h => (h1 _ h).1 rfl, fun h => (h1 _ h).2 rfl, h2⟩
  · refine ⟨fun h => ?_, fun h => ?_, by simp⟩
    · rcases List.mem_cons.1 h with h | h
      · cases h
      · exact (h1 _ h).1 rfl
    · rcases List.mem_cons.1 h with h | h
      · cases h
      · exact (h1 _ h).2 rfl

theorem load_line {w : Nat} {t x : Text} (h : '\n' ∉ t) :
    load w (t ++ '\n' :: x) =
      (unwrap (parse w (stripCR t)) >>= fun n => load w x >>= fun ns => pure (n :: ns)) := by
  rw [load, linesFrom_line _ _ _ h, List.nil_append, List.mapM_cons]
  rfl

/-- `load` accepts exactly the files with one number per line. -/
theorem load_iff {w : Nat} {x : Text} {ns : List Nat} : load w x = .ok ns ↔ Numbers w x ns := by
  constructor
  · intro h
    induction hl : x.length using Nat.strong_induction_on generalizing x ns with
    | _ len ih =>
      by_cases hx : '\n' ∈ x
      · obtain ⟨t, y, rfl, ht⟩ := List.eq_append_cons_of_mem hx
        rw [load_line ht] at h
        cases hp : parse w (stripCR t) with
        | none => rw [hp] at h; cases h
        | some n =>
          rw [hp] at h
          cases hy : load w y with
          | error e => rw [hy] at h; cases h
          | ok ms =>
            rw [hy] at h
            obtain rfl : n :: ms = ns := by simpa [unwrap, bind, Except.bind, pure, Except.pure] using h
            have k := ih y.length (by rw [← hl]; simp; omega) hy rfl
            rw [parse_iff] at hp
            unfold stripCR at hp
            split at hp
            · rename_i hr
              obtain ⟨t', rfl⟩ := List.getLast?_eq_some_iff.1 hr
              rw [List.dropLast_concat] at hp
              rw [List.append_assoc, List.singleton_append]
              exact .crlf hp k
            · exact .line hp k
      · rw [load, linesFrom_last _ _ hx, List.nil_append] at h
        split at h
        · rename_i h0
          subst h0
          obtain rfl : [] = ns := by simpa [pure, Except.pure] using h
          exact .nil
        · cases hp : parse w x with
          | none => rw [List.mapM_cons, hp] at h; cases h
          | some n =>
            rw [List.mapM_cons, hp] at h
            obtain rfl : [n] = ns := by simpa [unwrap, bind, Except.bind, pure, Except.pure] using h
            exact .last (parse_iff.1 hp)
  · intro h
    induction h with
    | nil => rfl
    | last h =>
      rw [load, linesFrom_last _ _ (Numeral.not_mem h).1, List.nil_append, if_neg (Numeral.not_mem h).2.2,
        List.mapM_cons, parse_iff.2 h]
      rfl
    | line h _ ih =>
      rw [load_line (Numeral.not_mem h).1, stripCR_of (Numeral.not_mem h).2.1, parse_iff.2 h, ih]
      rfl
    | @crlf t n x ns h _ ih =>
      have e : t ++ '\r' :: '\n' :: x = (t ++ ['\r']) ++ '\n' :: x := by simp
      have e2 : stripCR (t ++ ['\r']) = t := by simp [stripCR]
      rw [e, load_line (by simp [(Numeral.not_mem h).1]), e2, parse_iff.2 h, ih]
      rfl

theorem load_error {w : Nat} {x : Text} {e : Panic} (h : load w x = .error e) : e = .unwrapNone := by
  rw [load] at h
  generalize linesFrom [] x = l at h
  induction l with
  | nil => cases h
  | cons t l ih =>
    rw [List.mapM_cons] at h
    cases hp : parse w t with
    | none => rw [hp] at h; cases h; rfl
    | some n =>
      rw [hp] at h
      cases hl : l.mapM fun l => unwrap (parse w l) with
      | error e' => rw [hl] at h; cases h; exact ih hl
      | ok ms => rw [hl] at h; cases h

theorem Numbers.lt {w : Nat} {x : Text} {ns : List Nat} (h : Numbers w x ns) : ∀ n ∈ ns, n < 2 ^ w := by
  induction h with
  | nil => simp
  | last h =>
    obtain ⟨ds, -, -, -, -, k⟩ := h
    simpa using k
  | line h _ ih =>
    obtain ⟨ds, -, -, -, -, k⟩ := h
    simpa using ⟨k, ih⟩
  | crlf h _ ih =>
    obtain ⟨ds, -, -, -, -, k⟩ := h
    simpa using ⟨k, ih⟩

theorem Numbers.length_le {w : Nat} {x : Text} {ns : List Nat} (h : Numbers w x ns) : ns.length ≤ x.length := by
  induction h with
  | nil => simp
  | last h => exact List.length_pos_iff.2 (Numeral.not_mem h).2.2
  | line h _ ih => simp; omega
  | crlf h _ ih => simp; omega

end HLL.Evl
