import Verif.Proofs.Json
import Verif.Props.Deserialize
import Verif.Props.HistoryPF

/-!
# C86: sketches as JSON text

Programs that keep sketches as JSON text, as the crate's own tests do, compact or indented.
-/

namespace HLL
open Spec Json

variable {I : Type} {cfg : Cfg} {ln : F64 → F64} {c : Serde.Codec I} {f g : Json.Format}
  {ords ords' : Nat → IterOrder × IterOrder} {ops pre post : List (Op I)} {i : Nat}

/-- What the builder is written as can be kept in JSON: no `Option`s (`Some(())` and `None` would be the same text), no
keys with escapes, at most 126 levels. -/
def Writable (v : Value) : Prop := erase v = v ∧ KeysOk v ∧ depth v ≤ 126

/-- A builder without fields (`struct B;`), such as those of the crate's tests (src/hyperloglog.rs:224-225, 235-236). -/
example : Writable .unit := ⟨rfl, trivial, by decide⟩

/-- A builder with a key and a seed. -/
example : Writable (.map [("k0", .num 17), ("seeds", .seq [.num 1, .num 2])]) := by
  refine ⟨rfl, ?_, by decide⟩
  simp [KeysOk, KeysOkMap, KeysOkSeq, KeyOk]

theorem eraseSeq_num {α : Type} (h : α → Nat) (l : List α) :
    eraseSeq (l.map fun x => .num (h x)) = l.map fun x => .num (h x) := by
  induction l with
  | nil => rfl
  | cons x l ih => rw [List.map_cons, eraseSeq, erase, ih]

theorem keysOkSeq_num {α : Type} (h : α → Nat) (l : List α) : KeysOkSeq (l.map fun x => .num (h x)) := by
  induction l with
  | nil => trivial
  | cons x l ih => exact ⟨trivial, ih⟩

theorem depthSeq_num {α : Type} (h : α → Nat) (l : List α) : depthSeq (l.map fun x => .num (h x)) = 0 := by
  induction l with
  | nil => rfl
  | cons x l ih => rw [List.map_cons, depthSeq, depth, ih]; rfl

theorem serRegisters_json (r : Registers) : erase (Serde.serRegisters r) = Serde.serRegisters r ∧
    KeysOk (Serde.serRegisters r) ∧ depth (Serde.serRegisters r) = 2 := by
  refine ⟨?_, ?_, ?_⟩
  · simp only [Serde.serRegisters, erase, eraseMap, eraseSeq_num]
  · simp [Serde.serRegisters, KeysOk, KeysOkMap, KeyOk, keysOkSeq_num]
  · simp only [Serde.serRegisters, depth, depthMap, depthSeq_num]; rfl

theorem serPlus_keys (ord : IterOrder) {s : Plus I} (hb : Writable (c.ser s.builder)) :
    KeysOk (Serde.serPlus c ord s) ∧ depth (Serde.serPlus c ord s) ≤ 127 := by
  obtain ⟨_, h2, h3⟩ := hb
  obtain ⟨sk, sb, sc, st, sd, sr⟩ := s
  constructor
  · cases sr with
    | none => simp [Serde.serPlus, Serde.serDifInt, Serde.serVarInt, Serde.serOption, KeysOk, KeysOkMap, KeysOkSeq, KeyOk,
        keysOkSeq_num, h2]
    | some r =>
      have := (serRegisters_json r).2.1
      simp [Serde.serPlus, Serde.serDifInt, Serde.serVarInt, Serde.serOption, KeysOk, KeysOkMap, KeysOkSeq, KeyOk,
        keysOkSeq_num, h2, this]
  · cases sr with
    | none =>
      simp only [Serde.serPlus, Serde.serDifInt, Serde.serVarInt, Serde.serOption, depth, depthMap, depthSeq, depthSeq_num]
      simp only at h3
      omega
    | some r =>
      simp only [Serde.serPlus, Serde.serDifInt, Serde.serVarInt, Serde.serOption, depth, depthMap, depthSeq,
        depthSeq_num, (serRegisters_json r).2.2]
      simp only at h3
      omega

theorem view_serPlus (ord : IterOrder) {s : Plus I} (hb : Writable (c.ser s.builder)) :
    viewPlus (erase (Serde.serPlus c ord s)) = Serde.serPlus c ord s := by
  obtain ⟨h1, _, _⟩ := hb
  obtain ⟨sk, sb, sc, st, sd, sr⟩ := s
  simp only at h1
  cases sr with
  | none => simp [Serde.serPlus, Serde.serDifInt, Serde.serVarInt, Serde.serOption, erase, eraseMap, eraseSeq, eraseSeq_num,
      h1, viewPlus, option]
  | some r => simp [Serde.serPlus, Serde.serDifInt, Serde.serVarInt, Serde.serOption, erase, eraseMap, eraseSeq,
      eraseSeq_num, h1, viewPlus, Serde.serRegisters, option]

theorem serPF_json {s : PF I} (hb : Writable (c.ser s.builder)) :
    KeysOk (Serde.serPF c s) ∧ depth (Serde.serPF c s) ≤ 127 ∧ erase (Serde.serPF c s) = Serde.serPF c s := by
  obtain ⟨h1, h2, h3⟩ := hb
  have hr := serRegisters_json s.registers
  refine ⟨?_, ?_, ?_⟩
  · simp [Serde.serPF, KeysOk, KeysOkMap, KeyOk, h2, hr.2.1]
  · simp only [Serde.serPF, depth, depthMap, hr.2.2]
    omega
  · simp only [Serde.serPF, erase, eraseMap, h1, hr.1]

/-- **C86.** The formats of `to_string` and `to_string_pretty` add nothing but white space, so that what follows is about
both. -/
theorem C86_formats : compact.Ok ∧ pretty.Ok := ⟨compact_ok, pretty_ok⟩

/-- **C86.** Reading the text of a `HyperLogLogPlus`, between any white space, gives what a reader of the values themselves
gets. -/
theorem C86_plus_text (hf : f.Ok) (ord : IterOrder) {s : Plus I} (hb : Writable (c.ser s.builder)) {w w' : List Char}
    (hw : Blank w) (hw' : Blank w') :
    Plus.ofText cfg c (w ++ Plus.toText f c ord s ++ w') = Serde.dePlus cfg c (Serde.serPlus c ord s) := by
  obtain ⟨h1, h2⟩ := serPlus_keys ord hb
  rw [Plus.ofText, Plus.toText, parse_text hf h1 h2 hw hw', Option.bind_some, view_serPlus ord hb]

/-- **C86**, for `HyperLogLogPF`. -/
theorem C86_pf_text (hf : f.Ok) {s : PF I} (hb : Writable (c.ser s.builder)) {w w' : List Char}
    (hw : Blank w) (hw' : Blank w') :
    PF.ofText cfg c (w ++ PF.toText f c s ++ w') = Serde.dePF cfg c (Serde.serPF c s) := by
  obtain ⟨h1, h2, h3⟩ := serPF_json hb
  rw [PF.ofText, PF.toText, parse_text hf h1 h2 hw hw', Option.bind_some, h3]

/-- **C86.** A program that keeps its sketches as JSON text behaves in every way like one that keeps the values, so all
properties of programs with `reload` hold for it. -/
theorem C86_plus_api (hf : f.Ok) (hc : ∀ b, Writable (c.ser b)) : Plus.jsonApi f cfg ln c = Plus.api cfg ln c := by
  have : (fun (ord : IterOrder) (s : Plus I) => (pure (Plus.ofText cfg c (Plus.toText f c ord s)) : R _)) =
      (Plus.api cfg ln c).reload := by
    funext ord s
    have := C86_plus_text (cfg := cfg) hf ord (hc s.builder) (w := []) (w' := []) (by simp [Blank]) (by simp [Blank])
    rw [List.nil_append, List.append_nil] at this
    rw [this]
    rfl
  rw [Plus.jsonApi, this]

/-- **C86**, for `HyperLogLogPF`. -/
theorem C86_pf_api (hf : f.Ok) (hc : ∀ b, Writable (c.ser b)) : PF.jsonApi f cfg ln c = PF.api cfg ln c := by
  have : (fun (_ : IterOrder) (s : PF I) => (pure (PF.ofText cfg c (PF.toText f c s)) : R _)) =
      (PF.api cfg ln c).reload := by
    funext ord s
    have := C86_pf_text (cfg := cfg) hf (hc s.builder) (w := []) (w' := []) (by simp [Blank]) (by simp [Blank])
    rw [List.nil_append, List.append_nil] at this
    rw [this]
    rfl
  rw [PF.jsonApi, this]

/-- **C86.** Writing a sketch as text and reading it again, at any point of any program, succeeds and is like cloning the
sketch; and it does not matter whether the text was compact or indented. -/
theorem C86_plus_reload (hf : f.Ok) (hg : g.Ok) (hc : ∀ b, Writable (c.ser b)) {s : Abs I}
    (hs : (contents 64 18 pre)[i]? = some s) (h : Supported cfg c (pre ++ [.reload i] ++ post)) :
    later (Plus.jsonApi f cfg ln c) ords pre [.reload i] = .ok [.unit] ∧
      later (Plus.jsonApi f cfg ln c) ords (pre ++ [.reload i]) post =
        later (Plus.jsonApi g cfg ln c) ords' (pre ++ [.clone i]) post := by
  rw [C86_plus_api hf hc, C86_plus_api hg hc]
  exact ⟨C35_plus_reload_ok h.prefix hs, C35_plus_reload h⟩

/-- **C86**, for `HyperLogLogPF`. -/
theorem C86_pf_reload (hf : f.Ok) (hg : g.Ok) (hc : ∀ b, Writable (c.ser b)) {s : Abs I}
    (hs : (contents 32 16 pre)[i]? = some s) (h : Supported cfg c (pre ++ [.reload i] ++ post)) :
    later (PF.jsonApi f cfg ln c) ords pre [.reload i] = .ok [.unit] ∧
      later (PF.jsonApi f cfg ln c) ords (pre ++ [.reload i]) post =
        later (PF.jsonApi g cfg ln c) ords' (pre ++ [.clone i]) post := by
  rw [C86_pf_api hf hc, C86_pf_api hg hc]
  exact ⟨C35_pf_reload_ok h.prefix hs, C35_pf_reload h⟩

/-- A builder without fields, hashing values to themselves, and the programs that write it and read it again. -/
def plainCodec : Serde.Codec Nat := ⟨fun _ => .unit, fun _ => some fun n => BitVec.ofNat 64 n⟩

theorem plainCodec_writable (b : Nat → U64) : Writable (plainCodec.ser b) :=
  ⟨rfl, trivial, show depth .unit ≤ 126 by decide⟩

/-- A program that reloads. -/
def demoJson : List (Op Nat) := [.new 4 (fun n => BitVec.ofNat 64 n), .insert .insert 0 7, .reload 0, .insert .insert 1 9]

example : Supported Cfg.debug64 plainCodec demoJson ∧ compact.Ok ∧ pretty.Ok :=
  ⟨⟨Or.inl (by decide), fun _ p b h => by simp [demoJson] at h; rw [h.2]; rfl⟩, compact_ok, pretty_ok⟩

/-- **C86.** A text that was cut short anywhere is rejected. -/
theorem C86_plus_truncated (hf : f.Ok) (ord : IterOrder) {s : Plus I} (hb : Writable (c.ser s.builder)) {t u : List Char}
    (ht : Plus.toText f c ord s = t ++ u) (hu : u ≠ []) : Plus.ofText cfg c t = none := by
  obtain ⟨h1, h2⟩ := serPlus_keys ord hb
  rw [Plus.ofText, parse_prefix hf h1 h2 ht hu]
  rfl

/-- **C86**, for `HyperLogLogPF`. -/
theorem C86_pf_truncated (hf : f.Ok) {s : PF I} (hb : Writable (c.ser s.builder)) {t u : List Char}
    (ht : PF.toText f c s = t ++ u) (hu : u ≠ []) : PF.ofText cfg c t = none := by
  obtain ⟨h1, h2, _⟩ := serPF_json hb
  rw [PF.ofText, parse_prefix hf h1 h2 ht hu]
  rfl

/-- **C86.** A text followed by anything but white space (say, the rest of a longer text that it replaced in a file) is
rejected. -/
theorem C86_plus_continued (hf : f.Ok) (ord : IterOrder) {s : Plus I} (hb : Writable (c.ser s.builder)) {t : List Char}
    (ht : ¬ Blank t) : Plus.ofText cfg c (Plus.toText f c ord s ++ t) = none := by
  obtain ⟨h1, h2⟩ := serPlus_keys ord hb
  rw [Plus.ofText, Plus.toText, Serde.serPlus, parse_continued hf h1 h2 ht]
  rfl

/-- **C86**, for `HyperLogLogPF`. -/
theorem C86_pf_continued (hf : f.Ok) {s : PF I} (hb : Writable (c.ser s.builder)) {t : List Char}
    (ht : ¬ Blank t) : PF.ofText cfg c (PF.toText f c s ++ t) = none := by
  obtain ⟨h1, h2, _⟩ := serPF_json hb
  rw [PF.ofText, PF.toText, Serde.serPF, parse_continued hf h1 h2 ht]
  rfl

/-- The text of a sketch of precision 4 with one code waiting, as the crate writes it; without its last character it is
rejected, as it is with another brace. -/
example : Plus.toText compact plainCodec IterOrder.id
      ⟨fun n => BitVec.ofNat 64 n, 4, (16, 2 ^ 24, 12), [7#32], ⟨0, 0#32, []⟩, none⟩ =
      "{\"builder\":null,\"precision\":4,\"counts\":[16,16777216,12],\"tmpset\":[7],\"sparse\":{\"count\":0,\"last\":0,\"buf\":[]},\"registers\":null,\"phantom\":null}".toList ∧
    (Plus.ofText Cfg.debug64 plainCodec
      "{\"builder\":null,\"precision\":4,\"counts\":[16,16777216,12],\"tmpset\":[7],\"sparse\":{\"count\":0,\"last\":0,\"buf\":[]},\"registers\":null,\"phantom\":null}".toList).isSome ∧
    (Plus.ofText Cfg.debug64 plainCodec
      "{\"builder\":null,\"precision\":4,\"counts\":[16,16777216,12],\"tmpset\":[7],\"sparse\":{\"count\":0,\"last\":0,\"buf\":[]},\"registers\":null,\"phantom\":null".toList).isNone ∧
    (Plus.ofText Cfg.debug64 plainCodec
      "{\"builder\":null,\"precision\":4,\"counts\":[16,16777216,12],\"tmpset\":[7],\"sparse\":{\"count\":0,\"last\":0,\"buf\":[]},\"registers\":null,\"phantom\":null}}".toList).isNone := by
  decide +kernel

/-- The indented text of a `HyperLogLogPF` with one register set. -/
example : PF.toText pretty plainCodec ⟨fun n => BitVec.ofNat 64 n, 16, 4, ⟨[1#32, 0#32, 0#32], 16, 15⟩⟩ =
    "{\n  \"builder\": null,\n  \"count\": 16,\n  \"precision\": 4,\n  \"registers\": {\n    \"buf\": [\n      1,\n      0,\n      0\n    ],\n    \"count\": 16,\n    \"zeros\": 15\n  },\n  \"phantom\": null\n}".toList := by
  decide +kernel

/-! ## Texts from elsewhere -/

/-- **C86.** Programs that start with sketches read from any texts at all: if the sketches pass the checks of `GoodPlus`,
no call panics (compare `C36_plus_partial`). -/
theorem C86_plus_any_text (hf : f.Ok) (hc : ∀ b, Writable (c.ser b)) (hb : 36 < cfg.usizeBits) {st : List (Plus I)}
    (hst : ∀ s ∈ st, (∃ t, Plus.ofText cfg c t = some s) ∧ GoodPlus s) (n : Nat) :
    ∃ st' os, HLL.run (Plus.jsonApi f cfg ln c) ords n st ops = .ok (st', os) ∧ ∀ s ∈ st', GoodPlus s := by
  rw [C86_plus_api hf hc]
  refine C36_plus_partial hb (fun s hs => ⟨?_, (hst s hs).2⟩) n
  obtain ⟨t, ht⟩ := (hst s hs).1
  obtain ⟨v, -, hv⟩ := Option.bind_eq_some_iff.1 ht
  exact ⟨_, hv⟩

/-- **C86**, for `HyperLogLogPF`. -/
theorem C86_pf_any_text (hf : f.Ok) (hc : ∀ b, Writable (c.ser b)) (hb : 32 < cfg.usizeBits) {st : List (PF I)}
    (hst : ∀ s ∈ st, (∃ t, PF.ofText cfg c t = some s) ∧ GoodPF s) (n : Nat) :
    ∃ st' os, HLL.run (PF.jsonApi f cfg ln c) ords n st ops = .ok (st', os) ∧ ∀ s ∈ st', GoodPF s := by
  rw [C86_pf_api hf hc]
  refine C36_pf_partial hb (fun s hs => ⟨?_, (hst s hs).2⟩) n
  obtain ⟨t, ht⟩ := (hst s hs).1
  obtain ⟨v, -, hv⟩ := Option.bind_eq_some_iff.1 ht
  exact ⟨_, hv⟩

/-- A text that no sketch is written as. -/
def badText : List Char :=
  "{\"builder\":null,\"precision\":4,\"counts\":[16,16777216,12],\"tmpset\":[],\"sparse\":{\"count\":0,\"last\":0,\"buf\":[128]},\"registers\":null,\"phantom\":null}".toList

/-- The value in that text. -/
def badValue : Value :=
  .map [("builder", .unit), ("precision", .num 4), ("counts", .seq [.num 16, .num (2 ^ 24), .num 12]), ("tmpset", .seq []),
    ("sparse", .map [("count", .num 0), ("last", .num 0), ("buf", .seq [.num 128])]), ("registers", .none),
    ("phantom", .unit)]

theorem text_badValue : text compact 0 badValue = badText := by decide +kernel

/-- **C86.** Without the checks: this text is accepted, and every `insert`, `count` and `merge` on the sketch read from it
panics, whatever the builder, as long as it is read from `null` (as those of the crate's tests are). -/
theorem C86_plus_bad_text (hb : 32 ≤ cfg.usizeBits) {b : I → U64} (hc : c.de .unit = some b) :
    ∃ s, Plus.ofText cfg c badText = some s ∧
      (∀ k x, HLL.run (Plus.jsonApi f cfg ln c) ords 0 [s] [.insert k 0 x] = .error .indexOutOfBounds) ∧
      HLL.run (Plus.jsonApi f cfg ln c) ords 0 [s] [.count 0] = .error .indexOutOfBounds ∧
      HLL.run (Plus.jsonApi f cfg ln c) ords 0 [s] [.merge 0 0] = .error .indexOutOfBounds := by
  have h1 : badText = Plus.toText compact (⟨fun _ => .unit, c.de⟩ : Serde.Codec I) ⟨id, fun _ => .refl _⟩ (truncated b) :=
    text_badValue.symm
  have h2 := C86_plus_text (cfg := cfg) (c := (⟨fun _ => .unit, c.de⟩ : Serde.Codec I)) compact_ok ⟨id, fun _ => .refl _⟩
    (s := truncated b) ⟨rfl, trivial, show depth .unit ≤ 126 by decide⟩ (w := []) (w' := []) (by simp [Blank]) (by simp [Blank])
  rw [List.nil_append, List.append_nil, ← h1, truncated_accepted (c := (⟨fun _ => .unit, c.de⟩ : Serde.Codec I)) hb hc] at h2
  obtain ⟨h3, h4, h5⟩ := truncated_panics (ln := ln) (c := c) (ords := ords) hb b
  exact ⟨truncated b, h2, h3, h4, h5⟩

/-! ## The size of a text -/

theorem length_textSeq {α : Type} (h : α → Nat) {k : Nat} (hk : 0 < k) (l : List α) (hl : ∀ x ∈ l, h x < 10 ^ k) (d : Nat) :
    (textSeq compact d (l.map fun x => .num (h x))).length ≤ (k + 1) * l.length := by
  induction l with
  | nil => simp [textSeq]
  | cons x l ih =>
    have h1 := (Nat.length_toDigits_le_iff (b := 10) (n := h x) (by norm_num) hk).2 (hl x (by simp))
    have h2 := ih fun y hy => hl y (by simp [hy])
    rw [List.map_cons, textSeq, text]
    simp only [List.length_append, List.length_cons, compact, List.length_nil] at h2 ⊢
    rw [Nat.mul_succ]
    omega

theorem length_seq {α : Type} (h : α → Nat) {k : Nat} (hk : 0 < k) {l : List α} (hl : ∀ x ∈ l, h x < 10 ^ k) (d : Nat) :
    (text compact d (.seq (l.map fun x => .num (h x)))).length ≤ (k + 1) * l.length + 2 := by
  cases l with
  | nil => simp [text]
  | cons x l =>
    have h1 := (Nat.length_toDigits_le_iff (b := 10) (n := h x) (by norm_num) hk).2 (hl x (by simp))
    have h2 := length_textSeq h hk l (fun y hy => hl y (by simp [hy])) (d + 1)
    rw [List.map_cons, text, text]
    simp only [List.length_append, List.length_cons, compact, List.length_nil] at h2 ⊢
    rw [Nat.mul_succ]
    omega

theorem length_num {n k : Nat} (hk : 0 < k) (h : n < 10 ^ k) (d : Nat) : (text compact d (.num n)).length ≤ k := by
  rw [text]
  exact (Nat.length_toDigits_le_iff (b := 10) (by norm_num) hk).2 h

theorem length_map_one (d : Nat) (k : String) (v : Value) (l : List (String × Value)) :
    (text compact d (.map ((k, v) :: l))).length =
      k.toList.length + (text compact (d + 1) v).length + (textMap compact (d + 1) l).length + 5 := by
  rw [text]
  simp only [List.length_append, List.length_cons, compact, List.length_nil]
  omega

theorem length_textMap_cons (d : Nat) (k : String) (v : Value) (l : List (String × Value)) :
    (textMap compact d ((k, v) :: l)).length =
      k.toList.length + (text compact d v).length + (textMap compact d l).length + 4 := by
  rw [textMap]
  simp only [List.length_append, List.length_cons, compact, List.length_nil]
  omega

theorem length_registers {S n : Nat} {r : Registers} (h : GoodRegs S n r) (hn : n < 10 ^ 6) (d : Nat) :
    (text compact d (Serde.serRegisters r)).length ≤ 11 * ((n + 32 / S - 1) / (32 / S)) + 41 := by
  obtain ⟨h1, h2, h3⟩ := h
  have hz : r.zeros ≤ n := by
    rw [h3]
    exact (List.count_le_length).trans (by simp)
  have e1 := length_seq (fun w : U32 => w.toNat) (k := 10) (by norm_num) (l := r.buf)
    (fun x _ => lt_of_lt_of_le x.isLt (by norm_num)) (d + 1)
  have e2 := length_num (k := 6) (by norm_num) (show r.count < 10 ^ 6 by omega) (d + 1)
  have e3 := length_num (k := 6) (by norm_num) (show r.zeros < 10 ^ 6 by omega) (d + 1)
  rw [Serde.serRegisters, length_map_one, length_textMap_cons, length_textMap_cons, textMap]
  have k1 : "buf".toList.length = 3 := rfl
  have k2 : "count".toList.length = 5 := rfl
  have k3 : "zeros".toList.length = 5 := rfl
  simp only [List.length_nil]
  rw [h2] at e1
  omega

/-- **C86.** The size of a text depends on the precision, not on the number of values: at most four bytes per register of
the dense representation, besides the builder. -/
theorem C86_plus_size (h : Supported cfg c ops) {s : Plus I} {a : Abs I} (hr : ReachPlus cfg ln c ords ops i s a)
    (ord : IterOrder) :
    (Plus.toText compact c ord s).length ≤ 4 * 2 ^ a.p + (text compact 1 (c.ser s.builder)).length + 250 := by
  obtain ⟨⟨hb, hs⟩, -, -⟩ := hr.means h
  have hp := hb.hp2
  have hm : 2 ^ a.p ≤ 2 ^ 18 := Nat.pow_le_pow_right (by norm_num) hp
  have hm4 : 2 ^ 4 ≤ 2 ^ a.p := Nat.pow_le_pow_right (by norm_num) hb.hp1
  have hcap : 5 * capacity a.p ≤ 4 * 2 ^ a.p := by unfold capacity; omega
  have k1 : "builder".toList.length = 7 := rfl
  have k2 : "precision".toList.length = 9 := rfl
  have k3 : "counts".toList.length = 6 := rfl
  have k4 : "tmpset".toList.length = 6 := rfl
  have k5 : "sparse".toList.length = 6 := rfl
  have k6 : "registers".toList.length = 9 := rfl
  have k7 : "phantom".toList.length = 7 := rfl
  have k8 : "count".toList.length = 5 := rfl
  have k9 : "last".toList.length = 4 := rfl
  have k10 : "buf".toList.length = 3 := rfl
  have e1 := length_num (k := 2) (by norm_num) (show s.precision < 10 ^ 2 by rw [hb.prec]; omega) 1
  have e2 : (text compact 1 (.seq [.num s.counts.1, .num s.counts.2.1, .num s.counts.2.2])).length ≤ 9 * 3 + 2 := by
    refine length_seq id (k := 8) (by norm_num) (l := [s.counts.1, s.counts.2.1, s.counts.2.2]) ?_ 1
    rw [hb.counts]
    intro x hx
    simp only [List.mem_cons, List.not_mem_nil, or_false] at hx
    simp only [id]
    rcases hx with rfl | rfl | rfl <;> omega
  have e3 := length_seq (fun w : U32 => w.toNat) (k := 10) (by norm_num) (l := ord.apply s.tmpset)
    (fun x _ => lt_of_lt_of_le x.isLt (by norm_num)) 1
  rw [(ord.perm s.tmpset).length_eq] at e3
  have e4 := length_num (k := 10) (by norm_num) (lt_of_lt_of_le s.sparse.last.isLt (by norm_num)) 2
  have e5 := length_seq (fun w : U8 => w.toNat) (k := 3) (by norm_num) (l := s.sparse.buf)
    (fun x _ => lt_of_lt_of_le x.isLt (by norm_num)) 2
  have e7 : (text compact 1 .unit).length = 4 := rfl
  have key : s.sparse.count < 10 ^ 6 ∧ 11 * s.tmpset.length + 4 * s.sparse.buf.length +
      (text compact 1 (Serde.serOption Serde.serRegisters s.registers)).length ≤ 4 * 2 ^ a.p + 50 := by
    rcases hs with ⟨L, h1, h2, h3⟩ | ⟨r, h1⟩
    · have h4 := Plus.length_le_len h1.enc
      rw [h1.enc.count_eq, h1.regs]
      have e6 : (text compact 1 (Serde.serOption Serde.serRegisters none)).length = 4 := rfl
      rw [DifIntVec.len] at h2 h4
      omega
    · have hg := (hr.means h).1.good
      unfold GoodPlus at hg
      rw [h1.regs] at hg
      have h5 := length_registers hg.2.2.2 (by rw [hb.prec]; omega) 1
      rw [h1.sparse, h1.tmp, h1.regs, Serde.serOption, text]
      rw [hb.prec] at h5
      simp only [DifIntVec.new, VarIntVec.new, List.length_nil]
      omega
  have e6 := length_num (k := 6) (by norm_num) key.1 2
  rw [Plus.toText, Serde.serPlus, length_map_one, length_textMap_cons, length_textMap_cons, length_textMap_cons,
    length_textMap_cons, length_textMap_cons, length_textMap_cons, textMap, Serde.serDifInt, length_map_one,
    length_textMap_cons, length_textMap_cons, textMap, Serde.serVarInt]
  simp only [List.length_nil, Nat.zero_add, Nat.reduceAdd]
  omega

/-- **C86**, for `HyperLogLogPF`: at most two bytes per register. -/
theorem C86_pf_size (h : Supported cfg c ops) {s : PF I} {a : Abs I} (hr : ReachPF cfg ln c ords ops i s a) :
    (PF.toText compact c s).length ≤ 2 * 2 ^ a.p + (text compact 1 (c.ser s.builder)).length + 150 := by
  have hrep := (hr.means h).1
  obtain ⟨-, hp, hc, hg⟩ := hrep.good
  have hpp : s.precision = a.p := hrep.prec
  rw [hpp] at hp hc hg
  have hm : 2 ^ a.p ≤ 2 ^ 16 := Nat.pow_le_pow_right (by norm_num) hp
  have h5 := length_registers hg (by omega) 1
  have k1 : "builder".toList.length = 7 := rfl
  have k2 : "precision".toList.length = 9 := rfl
  have k6 : "registers".toList.length = 9 := rfl
  have k7 : "phantom".toList.length = 7 := rfl
  have k8 : "count".toList.length = 5 := rfl
  have e1 := length_num (k := 2) (by norm_num) (show s.precision < 10 ^ 2 by omega) 1
  have e2 := length_num (k := 6) (by norm_num) (show s.count < 10 ^ 6 by omega) 1
  have e7 : (text compact 1 .unit).length = 4 := rfl
  rw [PF.toText, Serde.serPF, length_map_one, length_textMap_cons, length_textMap_cons, length_textMap_cons,
    length_textMap_cons, textMap]
  simp only [List.length_nil, Nat.zero_add]
  omega

end HLL
