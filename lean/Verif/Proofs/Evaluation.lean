import Verif.Model.Evaluation
import Verif.Proofs.SetMachine

/-! # Facts about the evaluation program -/

namespace HLL.Evl
open Spec

/-! ## Texts -/

theorem digit_digitChar {d : Nat} (h : d < 10) : digit d.digitChar = some d := by
  rw [digit, Nat.isDigit_digitChar, if_pos (by simpa using h), Nat.toNat_digitChar_sub_48_of_lt_ten h]

theorem parseDigits_append (w : Nat) : ∀ (xs ys : Text) (acc : Nat),
    parseDigits w acc (xs ++ ys) = (parseDigits w acc xs).bind fun a => parseDigits w a ys
  | [], ys, acc => rfl
  | x :: xs, ys, acc => by
    simp only [List.cons_append, parseDigits]
    cases digit x with
    | none => rfl
    | some d =>
      simp only [Option.bind_eq_bind, Option.bind_some]
      split
      · exact parseDigits_append w xs ys _
      · rfl

theorem parseDigits_display (w n : Nat) :
    parseDigits w 0 (display n) = if n < 2 ^ w then some n else none := by
  induction n using Nat.strong_induction_on with
  | _ n ih =>
    rw [display, Nat.toDigits_eq_if (by norm_num)]
    split
    · rename_i hn
      simp only [parseDigits, digit_digitChar hn, Option.bind_eq_bind, Option.bind_some, Nat.zero_mul,
        Nat.zero_add]
    · rename_i hn
      have hd : n % 10 < 10 := Nat.mod_lt _ (by norm_num)
      rw [parseDigits_append, ← display, ih (n / 10) (by omega)]
      have e : n / 10 * 10 + n % 10 = n := by omega
      by_cases h : n / 10 < 2 ^ w
      · rw [if_pos h, Option.bind_some]
        simp only [parseDigits, digit_digitChar hd, Option.bind_eq_bind, Option.bind_some, e]
      · rw [if_neg h, if_neg (by omega)]; rfl

theorem display_isDigit {n : Nat} {c : Char} (h : c ∈ display n) : c.isDigit = true :=
  Nat.isDigit_of_mem_toDigits (by norm_num) (by norm_num) h

theorem display_ne_nil (n : Nat) : display n ≠ [] := Nat.toDigits_ne_nil

theorem parse_display (w n : Nat) : parse w (display n) = if n < 2 ^ w then some n else none := by
  rw [← parseDigits_display]
  have hd : ∀ c ∈ display n, c.isDigit = true := fun c => display_isDigit
  have hne := display_ne_nil n
  generalize display n = l at hd hne
  rcases l with - | ⟨c, cs⟩
  · exact absurd rfl hne
  · have : c ≠ '+' := by
      rintro rfl
      exact absurd (hd '+' (by simp)) (by decide)
    rw [parse.eq_def]
    split
    · rename_i h; cases h
    · rename_i h; cases h; exact absurd rfl this
    · rename_i h; cases h; exact absurd rfl this
    · rfl

theorem display_inj {a b : Nat} (h : display a = display b) : a = b := by
  have h1 := parse_display (a + b) a
  rw [h, parse_display, if_pos, if_pos] at h1
  · exact (Option.some.inj h1).symm
  · have := Nat.lt_two_pow_self (n := a + b); omega
  · have := Nat.lt_two_pow_self (n := a + b); omega

theorem display_no {n : Nat} {c : Char} (hc : c.isDigit = false) : c ∉ display n := by
  intro h
  rw [display_isDigit h] at hc
  cases hc

theorem linesFrom_line : ∀ (l : Text) (cur rest : Text), '\n' ∉ l →
    linesFrom cur (l ++ '\n' :: rest) = stripCR (cur ++ l) :: linesFrom [] rest
  | [], cur, rest, _ => by simp [linesFrom]
  | c :: l, cur, rest, h => by
    rw [List.mem_cons, not_or] at h
    rw [List.cons_append, linesFrom, if_neg (fun e => h.1 e.symm), linesFrom_line l _ _ h.2]
    simp

theorem linesFrom_last : ∀ (l : Text) (cur : Text), '\n' ∉ l →
    linesFrom cur l = if cur ++ l = [] then [] else [cur ++ l]
  | [], cur, _ => by simp [linesFrom]
  | c :: l, cur, h => by
    rw [List.mem_cons, not_or] at h
    rw [linesFrom, if_neg (fun e => h.1 e.symm), linesFrom_last l _ h.2]
    simp

theorem stripCR_of {l : Text} (h : '\r' ∉ l) : stripCR l = l := by
  rw [stripCR, if_neg]
  intro e
  exact h (List.mem_of_getLast? e)

theorem linesFrom_save : ∀ (vs : List Text), (∀ v ∈ vs, '\n' ∉ v ∧ '\r' ∉ v) →
    linesFrom [] (save vs) = vs
  | [], _ => by simp [save, linesFrom]
  | v :: vs, h => by
    have hv := h v (by simp)
    have ih := linesFrom_save vs (fun u hu => h u (by simp [hu]))
    rw [save, List.flatMap_cons, List.append_assoc, ← save]
    rw [List.singleton_append, linesFrom_line _ _ _ hv.1, List.nil_append, stripCR_of hv.2, ih]

/-- The same without a line break at the end of the file. -/
theorem linesFrom_join : ∀ (vs : List Text), (∀ v ∈ vs, '\n' ∉ v ∧ '\r' ∉ v ∧ v ≠ []) →
    linesFrom [] (List.intercalate ['\n'] vs) = vs
  | [], _ => by simp [linesFrom]
  | [v], h => by
    have hv := h v (by simp)
    rw [List.intercalate_singleton, linesFrom_last _ _ hv.1]
    simp [hv.2.2]
  | v :: u :: vs, h => by
    have hv := h v (by simp)
    have ih := linesFrom_join (u :: vs) (fun x hx => h x (by simp [hx]))
    rw [List.intercalate_cons_cons, List.append_assoc, List.singleton_append,
      linesFrom_line _ _ _ hv.1, List.nil_append, stripCR_of hv.2.1, ih]

theorem mapM_parse (w : Nat) : ∀ ns : List Nat,
    (ns.map display).mapM (fun l => unwrap (parse w l)) =
      if ∀ n ∈ ns, n < 2 ^ w then .ok ns else .error .unwrapNone
  | [] => by simp
  | n :: ns => by
    rw [List.map_cons, List.mapM_cons, mapM_parse w ns, parse_display]
    by_cases h : n < 2 ^ w
    · rw [if_pos h]
      by_cases h2 : ∀ n ∈ ns, n < 2 ^ w
      · rw [if_pos h2, if_pos (by simpa using ⟨h, h2⟩)]; rfl
      · rw [if_neg h2, if_neg (by intro h3; exact h2 fun n hn => h3 n (by simp [hn]))]; rfl
    · have h2 : ¬ ∀ x ∈ n :: ns, x < 2 ^ w := fun h3 => h (h3 n (by simp))
      rw [if_neg h, if_neg h2]; rfl

theorem load_generate (w : Nat) (ns : List Nat) :
    load w (generate ns) = if ∀ n ∈ ns, n < 2 ^ w then .ok ns else .error .unwrapNone := by
  rw [load, generate, linesFrom_save, mapM_parse]
  intro v hv
  obtain ⟨n, _, rfl⟩ := List.mem_map.1 hv
  exact ⟨display_no (by decide), display_no (by decide)⟩

theorem load_join (w : Nat) (ns : List Nat) :
    load w (List.intercalate ['\n'] (ns.map display)) =
      if ∀ n ∈ ns, n < 2 ^ w then .ok ns else .error .unwrapNone := by
  rw [load, linesFrom_join, mapM_parse]
  intro v hv
  obtain ⟨n, _, rfl⟩ := List.mem_map.1 hv
  exact ⟨display_no (by decide), display_no (by decide), display_ne_nil n⟩

/-! ## Experiments -/

variable {St I : Type} {cfg : Cfg} {api : Api St I} {ords : Nat → IterOrder × IterOrder}
  {w maxP : Nat} {F : Nat → Finset Nat → F64}

/-- The calls made in mode `hashes` after `new`. -/
def eachOps : List I → List (Op I)
  | [] => []
  | x :: xs => .insert .insert 0 x :: .count 0 :: eachOps xs

/-- The lines written in mode `hashes`, from a set `S`. -/
def eachLines (w : Nat) (f : Finset Nat → F64) (b : I → U64) : Nat → Finset Nat → List I → List (Nat × Nat)
  | _, _, [] => []
  | i, S, x :: xs => ((i + 1) % 2 ^ 64, truncU64 (f (insert ((b x).toNat % 2 ^ w) S))) ::
      eachLines w f b (i + 1) (insert ((b x).toNat % 2 ^ w) S) xs

/-- A successful program can be taken apart. -/
theorem run_cons_ok {n : Nat} {st st' : List St} {op : Op I} {ops : List (Op I)} {os : List Out}
    (h : HLL.run api ords n st (op :: ops) = .ok (st', os)) :
    ∃ st₁ o os', step api (ords n) st op = .ok (st₁, o) ∧ HLL.run api ords (n + 1) st₁ ops = .ok (st', os') ∧
      os = o :: os' := by
  rw [HLL.run] at h
  cases h1 : step api (ords n) st op with
  | error e => rw [h1] at h; cases h
  | ok r =>
    obtain ⟨st₁, o⟩ := r
    rw [h1] at h
    simp only [ok_bind] at h
    cases h2 : HLL.run api ords (n + 1) st₁ ops with
    | error e => rw [h2] at h; cases h
    | ok r =>
      obtain ⟨st₂, os'⟩ := r
      rw [h2] at h
      simp only [ok_bind] at h
      cases h
      exact ⟨st₁, o, os', rfl, h2, rfl⟩

theorem step_insert_ok {s : St} {st₁ : List St} {o : Out} {x : I} {n : Nat}
    (h : step api (ords n) [s] (.insert .insert 0 x) = .ok (st₁, o)) :
    ∃ s', api.insert (ords n).1 .insert s x = .ok s' ∧ st₁ = [s'] := by
  simp only [step, List.getElem?_cons_zero] at h
  cases h1 : api.insert (ords n).1 .insert s x with
  | error e => rw [h1] at h; cases h
  | ok s' =>
    rw [h1] at h
    cases h
    exact ⟨s', rfl, rfl⟩

theorem step_count_ok {s : St} {st₁ : List St} {o : Out} {n : Nat}
    (h : step api (ords n) [s] (.count 0) = .ok (st₁, o)) :
    ∃ s' e, api.count (ords n).1 s = .ok (s', e) ∧ st₁ = [s'] ∧ o = .count e := by
  simp only [step, List.getElem?_cons_zero] at h
  cases h1 : api.count (ords n).1 s with
  | error e => rw [h1] at h; cases h
  | ok r =>
    obtain ⟨s', e⟩ := r
    rw [h1] at h
    cases h
    exact ⟨s', e, rfl, rfl, rfl⟩

theorem estimateEach_ok {b : I → U64} {p : Nat} : ∀ (xs : List I) (n i : Nat) (s : St) (S : Finset Nat)
    (st : List St), HLL.run api ords n [s] (eachOps xs) =
      .ok (st, expectedFrom w maxP F [⟨b, p, S⟩] (eachOps xs)) →
    i + xs.length < 2 ^ cfg.usizeBits →
    estimateEach cfg api ords n i s xs = .ok (eachLines w (F p) b i S xs)
  | [], _, _, _, _, _, _, _ => rfl
  | x :: xs, n, i, s, S, st, h, hi => by
    rw [List.length_cons] at hi
    rw [eachOps] at h
    obtain ⟨st₁, o₁, os₁, h1, h2, e1⟩ := run_cons_ok h
    obtain ⟨st₂, o₂, os₂, h3, h4, e2⟩ := run_cons_ok h2
    obtain ⟨s₁, k1, rfl⟩ := step_insert_ok h1
    obtain ⟨s₂, e, k2, rfl, rfl⟩ := step_count_ok h3
    rw [expectedFrom, expectedFrom, List.cons.injEq, e2, List.cons.injEq] at e1
    obtain ⟨-, e3, e4⟩ := e1
    simp only [observe, effect, List.getElem?_cons_zero, List.set_cons_zero, Out.count.injEq] at e3 e4
    subst e3
    rw [← e4] at h4
    have ih := estimateEach_ok xs (n + 2) (i + 1) s₂ _ st h4 (by omega)
    rw [estimateEach, k1, ok_bind, addUsize_ok cfg (by omega), ok_bind, k2, ok_bind]
    simp only [ih, ok_bind]
    rfl

theorem eachLines_eq (f : Finset Nat → F64) (b : I → U64) : ∀ (xs : List I) (i : Nat) (S : Finset Nat),
    eachLines w f b i S xs = (List.range xs.length).map fun k => ((i + k + 1) % 2 ^ 64,
      truncU64 (f (S ∪ ((xs.take (k + 1)).map fun x => (b x).toNat % 2 ^ w).toFinset)))
  | [], _, _ => rfl
  | x :: xs, i, S => by
    rw [eachLines, eachLines_eq f b xs, List.length_cons, List.range_succ_eq_map, List.map_cons,
      List.map_map]
    congr 1
    · congr 3
      ext; simp [or_comm]
    · apply List.map_congr_left
      intro k _
      simp only [Function.comp]
      congr 2
      · congr 1; omega
      · congr 1
        rw [List.take_succ_cons, List.map_cons, List.toFinset_cons]
        ext y; simp only [Finset.mem_union, Finset.mem_insert]; tauto

/-- The calls made in mode `cardinalities`. -/
def drawOps (rng : Nat → I) : (k c : Nat) → List (Op I)
  | 0, _ => []
  | k + 1, c => .insert .insert 0 (rng c) :: drawOps rng k (c + 1)

def atOps (rng : Nat → I) : (c : Nat) → List Nat → List (Op I)
  | _, [] => []
  | c, t :: ts => drawOps rng (t - c) c ++ .count 0 :: atOps rng (max c t) ts

/-- The hashes of the first `c` draws. -/
def drawn (w : Nat) (b : I → U64) (rng : Nat → I) (c : Nat) : Finset Nat :=
  (Finset.range c).image fun j => (b (rng j)).toNat % 2 ^ w

theorem drawn_succ (b : I → U64) (rng : Nat → I) (c : Nat) :
    insert ((b (rng c)).toNat % 2 ^ w) (drawn w b rng c) = drawn w b rng (c + 1) := by
  rw [drawn, drawn, Finset.range_add_one, Finset.image_insert]

theorem insertRandom_ok {b : I → U64} {p : Nat} {rng : Nat → I} {ops : List (Op I)} {st : List St} :
    ∀ (k n c : Nat) (s : St),
    HLL.run api ords n [s] (drawOps rng k c ++ ops) =
      .ok (st, expectedFrom w maxP F [⟨b, p, drawn w b rng c⟩] (drawOps rng k c ++ ops)) →
    c + k < 2 ^ cfg.usizeBits →
    ∃ s', insertRandom cfg api ords rng k n c s = .ok (s', c + k) ∧
      HLL.run api ords (n + k) [s'] ops = .ok (st, expectedFrom w maxP F [⟨b, p, drawn w b rng (c + k)⟩] ops)
  | 0, n, c, s, h, _ => ⟨s, rfl, h⟩
  | k + 1, n, c, s, h, hc => by
    rw [drawOps, List.cons_append] at h
    obtain ⟨st₁, o₁, os₁, h1, h2, e1⟩ := run_cons_ok h
    obtain ⟨s₁, k1, rfl⟩ := step_insert_ok h1
    rw [expectedFrom, List.cons.injEq] at e1
    obtain ⟨-, e2⟩ := e1
    simp only [effect, List.getElem?_cons_zero, List.set_cons_zero] at e2
    rw [drawn_succ] at e2
    rw [← e2] at h2
    obtain ⟨s', h3, h4⟩ := insertRandom_ok k (n + 1) (c + 1) s₁ h2 (by omega)
    refine ⟨s', ?_, ?_⟩
    · rw [insertRandom, k1, ok_bind, addUsize_ok cfg (by omega), ok_bind, h3]
      congr 2; omega
    · rw [show n + (k + 1) = n + 1 + k by omega, show c + (k + 1) = c + 1 + k by omega]
      exact h4

/-- The lines written in mode `cardinalities`. -/
def atLines (w : Nat) (f : Finset Nat → F64) (b : I → U64) (rng : Nat → I) : Nat → List Nat → List (Nat × Nat)
  | _, [] => []
  | c, t :: ts => (max c t % 2 ^ 64, truncU64 (f (drawn w b rng (max c t)))) ::
      atLines w f b rng (max c t) ts

theorem estimateAt_ok {b : I → U64} {p : Nat} {rng : Nat → I} {st : List St} :
    ∀ (ts : List Nat) (n c : Nat) (s : St),
    HLL.run api ords n [s] (atOps rng c ts) =
      .ok (st, expectedFrom w maxP F [⟨b, p, drawn w b rng c⟩] (atOps rng c ts)) →
    c < 2 ^ cfg.usizeBits → (∀ t ∈ ts, t < 2 ^ cfg.usizeBits) →
    estimateAt cfg api ords rng n c s ts = .ok (atLines w (F p) b rng c ts)
  | [], _, _, _, _, _, _ => rfl
  | t :: ts, n, c, s, h, hc, ht => by
    have ht0 := ht t (by simp)
    rw [atOps] at h
    have e : c + (t - c) = max c t := by omega
    obtain ⟨s₁, h1, h2⟩ := insertRandom_ok (cfg := cfg) (t - c) n c s h (by omega)
    rw [e] at h1 h2
    obtain ⟨st₂, o₂, os₂, h3, h4, e2⟩ := run_cons_ok h2
    obtain ⟨s₂, x, k2, rfl, rfl⟩ := step_count_ok h3
    rw [expectedFrom, List.cons.injEq] at e2
    obtain ⟨e3, e4⟩ := e2
    simp only [observe, effect, List.getElem?_cons_zero, Out.count.injEq] at e3 e4
    subst e3
    rw [← e4] at h4
    have ih := estimateAt_ok ts (n + (t - c) + 1) (max c t) s₂ h4 (by omega) (fun u hu => ht u (by simp [hu]))
    rw [estimateAt, h1, ok_bind]
    simp only [k2, ok_bind, ih]
    rfl

theorem atLines_sorted (f : Finset Nat → F64) (b : I → U64) (rng : Nat → I) :
    ∀ (ts : List Nat) (c : Nat), (c :: ts).Pairwise (· ≤ ·) →
    atLines w f b rng c ts = ts.map fun t => (t % 2 ^ 64, truncU64 (f (drawn w b rng t)))
  | [], _, _ => rfl
  | t :: ts, c, h => by
    have h2 := List.pairwise_cons.1 h
    have e : max c t = t := max_eq_right (h2.1 t (by simp))
    rw [atLines, e, atLines_sorted f b rng ts t h2.2, List.map_cons]

/-- Creating a sketch and using it. -/
theorem create_ok (h : Implements api w maxP F G) {p : Nat} {b : I → U64} {ops : List (Op I)}
    (hG : G (.new p b :: ops)) (hp : 4 ≤ p ∧ p ≤ maxP) :
    ∃ s st, create api b p = .ok s ∧
      HLL.run api ords 1 [s] ops = .ok (st, expectedFrom w maxP F [⟨b, p, ∅⟩] ops) := by
  have h1 := h ords _ hG
  rw [outputs] at h1
  cases h2 : HLL.run api ords 0 [] (.new p b :: ops) with
  | error e => rw [h2] at h1; cases h1
  | ok r =>
    obtain ⟨st, os⟩ := r
    rw [h2] at h1
    have e : os = expected w maxP F (.new p b :: ops) := by
      simp only [ok_bind] at h1
      exact Except.ok.inj h1
    obtain ⟨st₁, o₁, os₁, k1, k2, e1⟩ := run_cons_ok h2
    rw [e, expected, expectedFrom, List.cons.injEq] at e1
    obtain ⟨e2, e3⟩ := e1
    simp only [observe, effect, if_pos hp, List.nil_append] at e2 e3
    subst e2
    rw [step] at k1
    cases k3 : api.new p b with
    | error e => rw [k3] at k1; cases k1
    | ok r =>
      rw [k3] at k1
      rcases r with e | s
      · cases k1
      · cases k1
        refine ⟨s, st, ?_, by rw [e3]; exact k2⟩
        rw [create, k3]; rfl

theorem create_error (h : Implements api w maxP F G) {p : Nat} {b : I → U64} (hG : G [.new p b])
    (hp : ¬ (4 ≤ p ∧ p ≤ maxP)) (ords : Nat → IterOrder × IterOrder) :
    create api b p = .error .unwrapNone := by
  have h1 := h ords _ hG
  rw [outputs] at h1
  cases h2 : HLL.run api ords 0 [] [.new p b] with
  | error e => rw [h2] at h1; cases h1
  | ok r =>
    obtain ⟨st, os⟩ := r
    rw [h2] at h1
    have e : os = expected w maxP F [.new p b] := by
      simp only [ok_bind] at h1
      exact Except.ok.inj h1
    obtain ⟨st₁, o₁, os₁, k1, k2, e1⟩ := run_cons_ok h2
    rw [e, expected, expectedFrom, List.cons.injEq] at e1
    obtain ⟨e2, -⟩ := e1
    simp only [observe, if_neg hp] at e2
    subst e2
    rw [step] at k1
    cases k3 : api.new p b with
    | error e => rw [k3] at k1; cases k1
    | ok r =>
      rw [k3] at k1
      rcases r with e | s
      · rw [create, k3]; rfl
      · cases k1

end HLL.Evl
