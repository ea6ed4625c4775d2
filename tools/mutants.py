"""Wrong programs: edits of the model as a realistic bug would change the code."""

PRE = '''import Verif
open HLL Spec F64
def b0 : Nat → U64 := fun v => BitVec.ofNat 64 (v * 0x9E3779B97F4A7C15 + 0x1234567)
def b1 : Nat → U64 := fun v => BitVec.ofNat 64 v
def c0 : Serde.Codec Nat := ⟨fun _ => .unit, fun _ => some b0⟩
def c1 : Serde.Codec Nat := ⟨fun _ => .unit, fun _ => some b1⟩
def ords0 : Nat → IterOrder × IterOrder := fun _ => (.id, .id)
def rev0 : Nat → IterOrder × IterOrder :=
  fun _ => (⟨List.reverse, List.reverse_perm⟩, ⟨List.reverse, List.reverse_perm⟩)
def ln0 : F64 → F64 := crateLn Cfg.debug64
def ins (i : Nat) (l : List Nat) : List (Op Nat) := l.map (Op.insert .insert i ·)
def crafted : List Nat := [0, 1, 2, 3, 2 ^ 38, 2 ^ 39, 2 ^ 39 + 1, 2 ^ 40, 2 ^ 45, 2 ^ 46, 2 ^ 53, 2 ^ 54,
  2 ^ 60, 2 ^ 60 - 1, 2 ^ 61, 2 ^ 63, 2 ^ 64 - 1, 2 ^ 63 + 2 ^ 39, 2 ^ 63 + 2 ^ 38, 5 * 2 ^ 46 + 2 ^ 20]
def dflt (b : Nat → U64) : List (List (Op Nat)) := [
  [.new 4 b] ++ (List.range 40).flatMap (fun v => [.insert .insert 0 v, .count 0]),
  [.new 10 b, .new 10 b] ++ ins 0 (List.range 5) ++ ins 1 [7, 8, 3] ++ [.merge 0 1, .count 0, .count 1],
  [.new 4 b, .new 4 b] ++ ins 0 (List.range 30) ++ ins 1 [50, 51] ++ [.clone 0, .clone 1, .merge 2 1,
    .merge 3 0, .count 2, .count 3, .merge 0 3, .count 0, .count 1],
  [.new 7 b, .new 7 b] ++ ins 0 (List.range 100) ++ ins 1 (List.range' 100 90) ++ [.clone 0, .merge 0 1,
    .count 0, .count 1, .count 2, .merge 0 2, .merge 1 0, .count 1],
  [.new 12 b, .new 12 b] ++ ins 0 (List.range 80) ++ ins 1 (List.range' 60 20) ++ [.merge 0 1, .count 0,
    .merge 1 0, .count 1, .reload 0, .count 2, .insert .add 2 1000, .count 2],
  [.new 3 b, .new 4 b, .new 16 b, .new 17 b, .new 18 b, .new 19 b, .merge 0 1, .merge 1 0, .count 0,
    .count 1, .count 2, .count 3, .insert .insertAny 1 77, .insert .add 0 9, .count 1, .count 0],
  [.new 4 b] ++ ins 0 (List.range 10) ++ [.reload 0, .count 1, .insert .insert 1 1, .insert .insert 1 99,
    .count 1, .count 0, .merge 0 1, .count 0],
  [.new 5 b, .new 6 b] ++ ins 0 (List.range 130) ++ ins 1 (List.range 260) ++ [.count 0, .count 1] ++
    ins 0 (List.range' 130 100) ++ [.count 0]]
def craft (b : Nat → U64) : List (List (Op Nat)) := [4, 5, 9, 10, 16, 18].flatMap fun p => [
  [.new p b] ++ crafted.flatMap (fun v => [.insert .insert 0 v, .count 0]),
  [.new p b, .new p b] ++ ins 0 (crafted.take 12) ++ ins 1 (crafted.drop 6) ++ [.merge 0 1, .count 0, .count 1]]
'''

def plus(b, progs, ords='ords0'):
    c = 'c0' if b == 'b0' else 'c1'
    return PRE + ('#guard (%s %s).any fun ops => outputs (Plus.api Cfg.debug64 ln0 %s) %s ops ≠ '
                  '.ok (expected 64 18 (plusCount ln0 (Plus.biasOf .earlyExit)) ops)\n' % (progs, b, c, ords))

def pf(b, progs):
    c = 'c0' if b == 'b0' else 'c1'
    return PRE + ('#guard (%s %s).any fun ops => outputs (PF.api Cfg.debug64 ln0 %s) ords0 ops ≠ '
                  '.ok (expected 32 16 (pfCount ln0) ops)\n' % (progs, b, c))

PLUSD = plus('b0', 'dflt')
PLUSC = plus('b1', 'craft')
PFD = pf('b0', 'dflt')
PFC = pf('b1', 'craft')

MUTANTS = []
def M(name, file, old, new, claim, breaks, witness=None, n=1):
    MUTANTS.append(dict(name=name, file='Model/' + file + '.lean', old=old, new=new, claim=claim,
                        breaks=breaks, witness=witness, n=n))

# --- constructors ---
M('plus-new-upper', 'Plus', 'precision > MAX_PRECISION', 'precision ≥ MAX_PRECISION',
  'C01: precision 18 must be accepted', ['C01_plus_new', 'plus_refines'], PLUSD)
M('plus-new-lower', 'Plus', 'precision < MIN_PRECISION', 'precision ≤ MIN_PRECISION',
  'C01: precision 4 must be accepted', ['C01_plus_new', 'plus_refines'], PLUSD)
M('plus-max-19', 'Plus', 'def MAX_PRECISION : Nat := 18', 'def MAX_PRECISION : Nat := 19',
  'C01: precision 19 must be rejected; C38: tables end at 18', ['C01_plus_new', 'plus_refines', 'C38_tables_defined'], PLUSD)
M('pf-max-18', 'PF', 'def MAX_PRECISION : Nat := 16', 'def MAX_PRECISION : Nat := 18',
  'C02: precisions 17 and 18 must be rejected', ['C02_pf_new', 'pf_refines'], PFD)
M('pf-new-lower', 'PF', 'precision < MIN_PRECISION', 'precision ≤ MIN_PRECISION',
  'C02: precision 4 must be accepted', ['C02_pf_new', 'pf_refines'], PFD)

# --- merge guards ---
M('plus-merge-noguard', 'Plus', 'if s.precision ≠ other.precision then', 'if s.precision > other.precision then',
  'C11: merging sketches of different precision is an error', ['C11_plus_incompatible', 'plus_refines'], PLUSD)
M('pf-merge-noguard', 'PF', 'if s.precision ≠ other.precision then', 'if s.precision < other.precision then',
  'C11: merging sketches of different precision is an error', ['C11_pf_incompatible', 'pf_refines'], PFD)
M('plus-merge-wrong-error', 'Plus', 'pure (s, .error .IncompatiblePrecision)', 'pure (s, .error .InvalidPrecision)',
  'C11: the error is IncompatiblePrecision', ['C11_plus_incompatible', 'plus_refines'], PLUSD)

# --- merge bodies ---
M('plus-merge-forgets-tmpset', 'Plus', '(ordO.apply other.tmpset).foldl hashSetInsert s.tmpset', 's.tmpset',
  'C08: merging adds the not yet compressed codes of the other sketch', ['C08_plus_merge_is_union', 'plus_refines',
   'C10_plus_merge_comm', 'C84_plus_merge', 'C84_plus_inclusion'], PLUSD)
M('plus-merge-forgets-sparse', 'Plus', 'let tmp := codes.foldl hashSetInsert tmp', 'let tmp := tmp',
  'C08: merging adds the compressed codes of the other sketch', ['C08_plus_merge_is_union', 'plus_refines'], PLUSD)
M('plus-merge-dense-sparse-tmp', 'Plus', 'let registers ← setCodes cfg other.precision (ordO.apply other.tmpset) registers',
  'let registers ← pure registers', 'C08: merging a sparse sketch into a dense one adds its uncompressed codes',
  ['C08_plus_merge_is_union', 'plus_refines'],
  PRE + '''#guard
  let ops : List (Op Nat) := [.new 10 b0, .new 10 b0] ++ ins 0 (List.range 900) ++ ins 1 [5000, 5001, 5003] ++ [.merge 0 1, .count 0]
  outputs (Plus.api Cfg.debug64 ln0 c0) ords0 ops ≠ .ok (expected 64 18 (plusCount ln0 (Plus.biasOf .earlyExit)) ops)
''')
M('plus-merge-dense-sparse-buf', 'Plus', 'let registers ← setCodes cfg other.precision codes registers',
  'let registers ← pure registers', 'C08: merging a sparse sketch into a dense one adds its compressed codes',
  ['C08_plus_merge_is_union', 'plus_refines'],
  PRE + '''#guard
  let ops : List (Op Nat) := [.new 10 b0, .new 10 b0] ++ ins 0 (List.range 900) ++ ins 1 [5000, 5001, 5003] ++ [.count 1, .merge 0 1, .count 0]
  outputs (Plus.api Cfg.debug64 ln0 c0) ords0 ops ≠ .ok (expected 64 18 (plusCount ln0 (Plus.biasOf .earlyExit)) ops)
''')
M('plus-merge-sparse-dense-drops', 'Plus', '''          let s ← mergeSparse cfg ordS s
          match s.registers with''', '''          match s.registers with''',
  'C08: the uncompressed codes of self survive merging a dense sketch', ['C08_plus_merge_is_union', 'plus_refines'],
  PRE + '''#guard
  let ops : List (Op Nat) := [.new 10 b0, .new 10 b0] ++ ins 0 (List.range 900) ++ ins 1 [5000, 5001, 5003] ++ [.merge 1 0, .count 1]
  outputs (Plus.api Cfg.debug64 ln0 c0) ords0 ops ≠ .ok (expected 64 18 (plusCount ln0 (Plus.biasOf .earlyExit)) ops)
''')
M('plus-mergeregs-shift', 'Plus', 'let r ← r.setGreater cfg SIZE i v\n    mergeRegs cfg (i + 1) vs r',
  'let r ← r.setGreater cfg SIZE i v\n    mergeRegs cfg i vs r', 'C08: registers are merged index by index',
  ['C08_plus_merge_is_union', 'plus_refines'], PLUSD)
M('pf-mergeregs-offset', 'PF', 'mergeRegs cfg 0 (other.registers.iter SIZE) s.registers',
  'mergeRegs cfg 0 ((other.registers.iter SIZE).drop 1) s.registers', 'C09: registers are merged index by index',
  ['C09_pf_merge_is_union', 'pf_refines'], PFD)
M('pf-merge-self', 'PF', 'mergeRegs cfg 0 (other.registers.iter SIZE) s.registers',
  'mergeRegs cfg 0 (s.registers.iter SIZE) s.registers', 'C09: merging adds the registers of the other sketch (self/other mixed up)',
  ['C09_pf_merge_is_union', 'pf_refines'], PFD)
M('plus-merge-overwrites-builder', 'Plus', '''        let s ← maybeMergeSparse cfg ordS { s with tmpset := tmp }
        pure (s, .ok ())''', '''        let s ← maybeMergeSparse cfg ordS { s with tmpset := tmp }
        pure ({ s with builder := fun _ => 0 }, .ok ())''',
  'C08: self keeps its own hasher after a merge', ['plus_refines', 'C05_plus_later'],
  PRE + '''#guard
  let ops : List (Op Nat) := [.new 10 b0, .new 10 b1, .merge 0 1, .insert .insert 0 5, .merge 1 0, .insert .insert 1 5, .count 1]
  outputs (Plus.api Cfg.debug64 ln0 c0) ords0 ops ≠ .ok (expected 64 18 (plusCount ln0 (Plus.biasOf .earlyExit)) ops)
''')

# --- insertion ---
M('plus-insert-rank-off', 'Plus', '''    let hash := a ||| b
    let zeros : U32 := BitVec.ofNat 32 (1 + leadingZeros hash)
    let registers ←''', '''    let hash := a ||| b
    let zeros : U32 := BitVec.ofNat 32 (leadingZeros hash)
    let registers ←''', 'C14: the rank counts the first one bit', ['C14_plus_registers', 'plus_refines', 'C13_switch_lossless'], PLUSD)
M('plus-insert-no-sentinel', 'Plus', '''    let k ← subU8 cfg s.precision 1
    let b ← shl cfg 1#64 k
    let hash := a ||| b''', '''    let hash := a''', 'C15: ranks are bounded by 65 - p', ['C14_plus_registers', 'plus_refines'],
  PRE + '''#guard
  let ops : List (Op Nat) := [.new 4 b1] ++ ins 0 (List.range' 1 15 |>.map (· * 2 ^ 60 + 2 ^ 45)) ++ ins 0 [0] ++ [.count 0]
  outputs (Plus.api Cfg.debug64 ln0 c1) ords0 ops ≠ .ok (expected 64 18 (plusCount ln0 (Plus.biasOf .earlyExit)) ops)
''')
M('plus-insert-index-low', 'Plus', 'let idx ← shr cfg hash k\n    let a ← shl cfg hash s.precision', 
  'let idx ← shr cfg (hash &&& 0x0fffffffffffffff#64) k\n    let a ← shl cfg hash s.precision',
  'C14: the index is made of the top p bits', ['C14_plus_registers', 'plus_refines'], PLUSD)
M('pf-insert-high-half', 'PF', 'let hash : U32 := hash64.setWidth 32', 'let hash : U32 := (hash64 >>> 32).setWidth 32',
  'C40: the low half of the hash is used', ['C14_pf_registers', 'pf_refines', 'C22_pf_insert_kinds', 'C83_pf_hidden'], PFD)
M('pf-insert-rank-off', 'PF', 'BitVec.ofNat 32 (1 + leadingZeros hash)', 'BitVec.ofNat 32 (2 + leadingZeros hash)',
  'C14: the rank counts the first one bit', ['C14_pf_registers', 'pf_refines'], PFD)
M('pf-insert-sentinel', 'PF', 'let k ← subU8 cfg s.precision 1', 'let k ← subU8 cfg s.precision 0',
  'C14: the sentinel must lie below the remaining hash bits', ['C14_pf_registers', 'pf_refines'], PFC)
M('plus-add-noop', 'Plus', '''def add (cfg : Cfg) (ord : IterOrder) (s : Plus I) (value : I) : R (Plus I) :=
  insertImpl cfg ord s value''', '''def add (_ : Cfg) (_ : IterOrder) (s : Plus I) (_ : I) : R (Plus I) :=
  pure s''', 'C22: add inserts', ['C22_plus_insert_kinds', 'plus_refines', 'C84_plus_insert', 'C84_plus_member'], PLUSD)
M('pf-insertany-noop', 'PF', 'def insertAny (cfg : Cfg) (s : PF I) (value : I) : R (PF I) := insertImpl cfg s value',
  'def insertAny (_ : Cfg) (s : PF I) (_ : I) : R (PF I) := pure s', 'C22: insert_any inserts',
  ['C22_pf_insert_kinds', 'pf_refines'], PFD)

# --- sparse representation ---
M('hashset-dup', 'Plus', 'if x ∈ s then s else x :: s', 'x :: s', 'C07: a set holds each code once (duplicates make merge_sparse early)',
  ['plus_refines'])
M('encode-flag', 'Plus', 'pure (x ||| z ||| 1#32)', 'pure (x ||| z)', 'C13: the flag tells the two kinds of code apart',
  ['C25_code_injective', 'plus_refines'], PLUSC)
M('encode-rank-lost', 'Plus', 'let z ← shl cfg zeros 1\n    pure (x ||| z ||| 1#32)', 'let z ← shl cfg zeros 2\n    pure (x ||| z ||| 1#32)',
  'C13: the rank is stored in bits 1 to 6', ['C13_switch_lossless', 'plus_refines'], PLUSC)
M('encode-cond', 'Plus', 'if dif = 0#64 then do', 'if dif ≠ 0#64 then do', 'C13: the rank is stored when the index bits do not determine it',
  ['C13_switch_lossless', 'plus_refines'], PLUSC)
M('encode-hi', 'Plus', 'let hi ← subU8 cfg 64 precision\n  let lo', 'let hi ← subU8 cfg 63 precision\n  let lo',
  'C13: bits p to 25 decide the kind of code', ['plus_refines', 'C13_switch_lossless', 'C83_plus_unchanged'], PLUSC)
M('decode-rank', 'Plus', 'let d ← subU8 cfg PRIME_PRECISION precision\n    let z ← addU32 cfg x (BitVec.ofNat 32 d)',
  'let d ← subU8 cfg PRIME_PRECISION 4\n    let z ← addU32 cfg x (BitVec.ofNat 32 d)', 'C13: decoding adds 25 - p to the stored rank',
  ['C13_switch_lossless', 'plus_refines'], PLUSC)
M('decode-rank-plain', 'Plus', 'BitVec.ofNat 32 (leadingZeros h + 1)', 'BitVec.ofNat 32 (leadingZeros h)',
  'C13: decoding counts the first one bit', ['C13_switch_lossless', 'plus_refines'], PLUSD)
M('indexof-odd', 'Plus', 'let lo ← subU8 cfg 32 precision\n    let x ← extract32 cfg code 32 lo',
  'let lo ← subU8 cfg 31 precision\n    let x ← extract32 cfg code 32 lo', 'C13: register index of codes with stored rank',
  ['C13_switch_lossless', 'plus_refines'], PLUSC)
M('mergeloop-drop-eq', 'Plus', '''    if a = b then do
      let out ← out.push cfg a
      mergeLoop cfg as bs out''', '''    if a = b then
      mergeLoop cfg as bs out''', 'C13: a code present on both sides is kept', ['plus_refines'],
  PRE + '''#guard
  let ops : List (Op Nat) := [.new 10 b0, .insert .insert 0 1, .count 0, .insert .insert 0 1, .count 0]
  outputs (Plus.api Cfg.debug64 ln0 c0) ords0 ops ≠ .ok (expected 64 18 (plusCount ln0 (Plus.biasOf .earlyExit)) ops)
''')
M('mergeloop-dup', 'Plus', '''      let out ← out.push cfg a
      mergeLoop cfg as bs out''', '''      let out ← out.push cfg a
      mergeLoop cfg as (b :: bs) out''', 'C07: a code present on both sides is stored once', ['plus_refines', 'C07_plus_reinsert', 'C83_plus_hidden', 'C83_plus_all_hidden'],
  PRE + '''#guard
  let ops : List (Op Nat) := [.new 10 b0, .insert .insert 0 1, .count 0, .insert .insert 0 1, .count 0]
  outputs (Plus.api Cfg.debug64 ln0 c0) ords0 ops ≠ .ok (expected 64 18 (plusCount ln0 (Plus.biasOf .earlyExit)) ops)
''')
M('mergeloop-order', 'Plus', 'else if a > b then do', 'else if a < b then do', 'C03: codes are pushed in increasing order',
  ['C03_plus_no_panic', 'plus_refines'], PLUSD)
M('mergesparse-unsorted', 'Plus', 'let setCodes := sortCodes (ord.apply s.tmpset)', 'let setCodes := ord.apply s.tmpset',
  'C03/C21: the set is sorted before merging', ['C03_plus_no_panic', 'plus_refines', 'C21_iteration_order_unobservable'], PLUSD)
M('mergesparse-keeps-tmp', 'Plus', 'let s := { s with sparse := buf, tmpset := [] }', 'let s := { s with sparse := buf }',
  'C19: the set is emptied when it is merged into the list', ['C19_storage_bounded'],
  PRE + '''#guard
  let p : Plus Nat := ⟨b0, 4, (16, 2 ^ 24, 12), [], DifIntVec.new, none⟩
  match Plus.insertHash Cfg.debug64 .id p 5 with
  | .ok s => s.tmpset.length * 100 > capacity 4 ∧ s.registers = none
  | _ => false
''')
M('mergesparse-threshold', 'Plus', 'if s.sparse.len > s.counts.2.2 then sparseToNormal cfg s else pure s',
  'if s.sparse.len ≥ s.counts.2.2 then sparseToNormal cfg s else pure s', 'C20: sparse exactly while the codes fit',
  ['C20_sparse_iff_fits', 'plus_refines'])
M('mergesparse-never', 'Plus', 'if s.sparse.len > s.counts.2.2 then sparseToNormal cfg s else pure s',
  'if s.sparse.len > s.counts.2.1 then sparseToNormal cfg s else pure s', 'C19/C20: storage is bounded by the dense size',
  ['C20_sparse_iff_fits', 'C19_storage_bounded', 'plus_refines'], PLUSD)
M('maybemerge-threshold', 'Plus', 'if n > s.counts.2.2 then mergeSparse cfg ord s else pure s',
  'if n > s.counts.2.2 * 100 then mergeSparse cfg ord s else pure s', 'C19: the uncompressed set is bounded',
  ['C19_storage_bounded'])
M('capacity', 'Registers', 'let a ← mulUsize cfg 4 count', 'let a ← mulUsize cfg 8 count', 'C19: the sparse representation is no larger than the dense one',
  ['C19_storage_bounded', 'plus_refines', 'C20_sparse_iff_fits', 'C80_dense'], PLUSD)
M('sparse2normal-forgets', 'Plus', 'let r ← setCodes cfg s.precision codes r', 'let r ← setCodes cfg s.precision (codes.drop 1) r',
  'C13: no code is lost when switching', ['C13_switch_lossless', 'plus_refines'], PLUSD)
M('sparse2normal-keeps-list', 'Plus', 'pure { s with registers := some r, tmpset := [], sparse := s.sparse.clear }',
  'pure { s with registers := some r, tmpset := [] }', 'C19: the sparse list is released on switching', ['C19_storage_bounded'])
M('sparse-count-plain', 'Plus', 'let zeros ← subUsize cfg s.counts.2.1 s.sparse.count', 'let zeros ← subUsize cfg s.counts.1 s.sparse.count',
  'C24: linear counting over 2^24 cells in sparse mode', ['plus_refines', 'C24_sparse_accurate', 'C03_plus_no_panic'], PLUSD)
M('count-without-merge', 'Plus', '''    | none => mergeSparse cfg ord s
    | some _ => pure s : R (Plus I))
  match s.registers with
  | some registers => do
    let c''', '''    | none => pure s
    | some _ => pure s : R (Plus I))
  match s.registers with
  | some registers => do
    let c''', 'C05: count sees the values still in the set', ['plus_refines', 'C05_plus_later', 'C24_sparse_accurate'], PLUSD)

# --- encodings ---
M('varint-mask', 'Encoding', 'def VAR_INT_MASK : U32 := ~~~ (127#32)', 'def VAR_INT_MASK : U32 := ~~~ (255#32)',
  'C17: values of 128 and more take several bytes', ['C17_varint_roundtrip', 'C17_varint_size'])
M('varint-cont-last', 'Encoding', '      [(val &&& 127#32).setWidth 8]', '      [(val &&& 127#32).setWidth 8 ||| 128#8]',
  'C17: the last byte has no continuation bit', ['C17_varint_roundtrip', 'C17_varint_append'])
M('varint-shift', 'Encoding', 'let part ← shl cfg (b.setWidth 32) (i * 7)', 'let part ← shl cfg (b.setWidth 32) (i * 8)',
  'C17: seven bits per byte', ['C17_varint_roundtrip', 'plus_refines'])
M('varint-next-index', 'Encoding', 'pure (val ||| part, start + i + 1)', 'pure (val ||| part, start + i + 2)',
  'C17: decoding stops at the byte after the value', ['C17_varint_roundtrip', 'plus_refines'])
M('difint-last', 'Encoding', 'pure { buf := d.buf.push dif, last := val, count := count }',
  'pure { buf := d.buf.push dif, last := dif, count := count }', 'C18: differences are taken to the previous value',
  ['C18_difint_roundtrip', 'plus_refines'])
M('difint-count', 'Encoding', 'let count ← addUsize cfg d.count 1', 'let count ← addUsize cfg d.count 0', 'C18: the number of values is kept',
  ['C18_difint_roundtrip', 'plus_refines', 'C24_sparse_accurate'], PLUSD)
M('difint-iter-last', 'Encoding', 'pure (some (last, ⟨idx, last⟩))', 'pure (some (last, ⟨idx, dif⟩))', 'C18: the iterator accumulates differences',
  ['C18_difint_roundtrip', 'plus_refines'])
M('difint-clear', 'Encoding', 'def clear (_ : DifIntVec) : DifIntVec := ⟨0, 0#32, []⟩', 'def clear (d : DifIntVec) : DifIntVec := ⟨0, d.last, []⟩',
  'C18: clearing resets the previous value', ['C19_storage_bounded'])

# --- registers ---
M('regs-setgreater-ge', 'Registers', 'if value > cur then', 'if value ≥ cur then', 'C16: writing 0 to a zero register does not change the number of zeros',
  ['C15_registers_independent_maxima'],
  PRE + '''#guard
  match Registers.withCount Cfg.debug64 6 16 with
  | .ok r => (match r.setGreater Cfg.debug64 6 3 0 with | .ok r' => r'.zeros ≠ 16 | _ => true)
  | _ => false
''')
M('regs-setgreater-min', 'Registers', 'if value > cur then', 'if value < cur then', 'C15: registers keep the maximum',
  ['C15_registers_independent_maxima', 'plus_refines', 'pf_refines'], PFD)
M('regs-no-clear', 'Registers', '((w &&& ~~~ m) ||| v)', '(w ||| v)', 'C15: the old value is erased before the new one is written',
  ['C15_registers_independent_maxima', 'plus_refines', 'pf_refines'], PFD)
M('regs-zeros-kept', 'Registers', 'let zeros ← subUsize cfg r.zeros 1', 'let zeros ← subUsize cfg r.zeros 0', 'C16: the number of zeros is kept up to date',
  ['C16_plus_zeros', 'C16_pf_zeros', 'C15_registers_independent_maxima', 'plus_refines', 'pf_refines'], PFD)
M('regs-zeros-always', 'Registers', '''      let buf ← setIndex r.buf qu ((w &&& ~~~ m) ||| v)
      pure { r with buf := buf }''', '''      let buf ← setIndex r.buf qu ((w &&& ~~~ m) ||| v)
      let zeros ← subUsize cfg r.zeros 1
      pure { r with buf := buf, zeros := zeros }''', 'C16: raising a non-zero register does not change the number of zeros',
  ['C16_plus_zeros', 'C16_pf_zeros', 'C03_plus_no_panic', 'C04_pf_no_panic'], PFD)
M('regs-words', 'Registers', '  let b ← subUsize cfg a 1\n  pure (b / denom)', '  let b ← subUsize cfg a denom\n  pure (b / denom)',
  'C03/C04: there is a word for the last registers', ['C03_plus_no_panic', 'C04_pf_no_panic', 'plus_refines', 'pf_refines'], PFD)
M('regs-iter-untrimmed', 'Registers', '(r.buf.flatMap (lanes SIZE)).take r.count', 'r.buf.flatMap (lanes SIZE)',
  'C14: iteration yields exactly 2^p registers', ['C14_plus_registers', 'C14_pf_registers', 'plus_refines', 'pf_refines'], PFD)
M('regs-mask', 'Registers', 'def mask (SIZE : Nat) : U32 := (1#32 <<< SIZE) - 1#32', 'def mask (SIZE : Nat) : U32 := (1#32 <<< (SIZE - 1)) - 1#32',
  'C15: a register holds values up to 2^SIZE - 1', ['C15_registers_independent_maxima'])
M('plus-size-5', 'Plus', 'def SIZE : Nat := 6', 'def SIZE : Nat := 5', 'C15: ranks up to 61 need six bits', ['C15_ranks_fit', 'plus_refines'])
M('extract', 'Registers', '  let d ← subU8 cfg hi lo\n  let b ← subU8 cfg 64 d\n  shr cfg x b', '  let d ← subU8 cfg hi lo\n  let b ← subU8 cfg 63 d\n  shr cfg x b',
  'C13: extraction yields hi - lo bits', ['plus_refines'], PLUSD)

# --- estimators ---
M('alpha-32', 'Common', '| 32 => ofDec 697 3', '| 32 => ofDec 709 3', 'C39: the constant for 32 registers', ['plus_refines', 'pf_refines', 'C39_pf_estimator'], PFD)
M('alpha-default', 'Common', 'div (ofDec 1079 3)', 'div (ofDec 179 3)', 'C39: the constant for many registers', ['plus_refines', 'pf_refines', 'C39_plus_estimator', 'C83_plus_inflated', 'C83_plus_some_inflated'], PFD)
M('raw-linear', 'Common', 'let c2 ← mulUsize cfg count count', 'let c2 ← mulUsize cfg count 1', 'C39: the raw estimate is alpha m^2 / sum',
  ['plus_refines', 'pf_refines', 'C39_plus_estimator', 'C39_pf_estimator'], PFD)
M('linear-swapped', 'Common', 'mul (ofNat count) (ln (div (ofNat count) (ofNat zeros)))', 'mul (ofNat count) (ln (div (ofNat zeros) (ofNat count)))',
  'C23/C39: linear counting is m ln(m/V)', ['plus_refines', 'pf_refines', 'C26_plus_finite', 'C24_sparse_accurate'], PFD)
M('raw-table-short', 'Common', '(if cfg.std then 64 else 32)', '32', 'C33: the table has an entry for every rank', ['C33_plus_const_loop'])
M('raw-table-off', 'Common', 'div one (ofNat ((1#64 <<< i : U64).toNat))', 'div one (ofNat ((1#64 <<< (i + 1) : U64).toNat))',
  'C33: the table holds the powers computed otherwise', ['C33_plus_const_loop', 'C33_pf_const_loop'])
M('threshold-11', 'Plus', '| 11 => pure (F64.ofNat 1800)', '| 11 => pure (F64.ofNat 1080)', 'C39: the threshold of the paper', ['plus_refines', 'C39_plus_estimator'])
M('threshold-18', 'Plus', '  | 18 => pure (F64.ofNat 350000)\n', '', 'C38: thresholds exist for all precisions', ['C38_tables_defined', 'C03_plus_no_panic'])
M('count-le-lt', 'Plus', 'if zeros ≠ 0 then do', 'if zeros = 0 then do', 'C39: linear counting only when a register is zero', ['plus_refines', 'C39_plus_estimator'], PLUSD)
M('bias-added', 'Plus', 'pure (F64.sub raw bias)', 'pure (F64.add raw bias)', 'C39: the bias is subtracted', ['plus_refines', 'C39_plus_estimator'], PLUSD)
M('bias-5m', 'Plus', 'F64.mul (F64.ofNat 5) (F64.ofNat m)', 'F64.mul (F64.ofNat 4) (F64.ofNat m)', 'C39: bias correction up to 5m', ['plus_refines', 'C39_plus_estimator', 'C82_plus_corrected'])
M('bias-first', 'Plus', 'if F64.le raw first then index biases 0', 'if F64.le raw first then index biases 1', 'C29: below the table the first bias is used', ['C29_bias_lookup'])
M('bias-index', 'Plus', 'let prv ← subUsize cfg idx 1', 'let prv ← subUsize cfg idx 2', 'C29: interpolation between neighbours', ['C29_bias_lookup'])
M('bias-interp', 'Plus', 'pure (F64.add bPrv (F64.mul ratio (F64.sub bIdx bPrv)))', 'pure (F64.add bIdx (F64.mul ratio (F64.sub bIdx bPrv)))',
  'C29: interpolation starts from the lower neighbour', ['C29_bias_lookup'])
M('bias-last', 'Plus', 'if F64.le last raw then do', 'if F64.le raw last then do', 'C29: above the table the last bias is used', ['C29_bias_lookup'])
M('bias-row', 'Plus', 'let estimates ← index Constants.RAW_ESTIMATE_DATA k', 'let estimates ← index Constants.RAW_ESTIMATE_DATA (k - 1)',
  'C29: the rows of the two tables belong together', ['C29_bias_lookup'])
M('pf-large-range', 'PF', 'F64.div two32 (F64.ofNat 30)', 'F64.div two32 (F64.ofNat 3)', 'C39: large range correction above 2^32/30', ['pf_refines', 'C39_pf_estimator'])
M('pf-linear-zero', 'PF', '(F64.ofNat s.count)) ∧ zeros ≠ 0 then', '(F64.ofNat s.count)) then', 'C27/C39: no linear counting without zero registers',
  ['pf_refines', 'C39_pf_estimator'])
M('pf-sign', 'PF', 'F64.mul (F64.neg Common.one) two32', 'F64.mul Common.one two32', 'C39: the large range correction is positive', ['pf_refines', 'C39_pf_estimator'])

# --- serde ---
M('serde-drop-tmpset', 'Serde', '("tmpset", .seq ((ord.apply s.tmpset).map fun x => .num x.toNat))', '("tmpset", .seq [])',
  'C35: a reloaded sketch keeps the uncompressed codes', ['C35_plus_reload', 'plus_refines'])
M('serde-last', 'Serde', '("last", .num d.last.toNat)', '("last", .num 0)', 'C35: a reloaded sketch keeps all fields', ['C35_plus_reload'],
  None)
M('serde-zeros', 'Serde', '("zeros", .num r.zeros)', '("zeros", .num r.count)', 'C35: a reloaded sketch keeps the number of zeros',
  ['C35_plus_reload', 'C35_pf_reload', 'pf_refines'], None)
M('serde-field-name', 'Serde', 'match ← fields ["buf", "count", "zeros"] v with', 'match ← fields ["buffer", "count", "zeros"] v with',
  'C35: reloading succeeds', ['C35_plus_reload_ok', 'C35_pf_reload_ok'])

# --- logarithm ---
M('log-k', 'Log', 'let e ← ckI32 cfg ((hx >>> 20).toInt - 0x3ff)', 'let e ← ckI32 cfg ((hx >>> 20).toInt - 0x3fe)',
  'C37: the exponent of the argument', ['C37_accurate', 'C37_reduction', 'C37_lnSpec'])
M('log-subnormal', 'Log', 'ckI32 cfg (k - 54)', 'ckI32 cfg (k - 52)', 'C37: subnormal numbers are scaled by 2^54', ['C37_accurate', 'C37_reduction'])
M('log-lg3', 'Log', 'ofDec 2857142874366239149 19', 'ofDec 2857142847366239149 19', 'C37: a digit of a coefficient', ['C37_constants', 'C37_accurate'])
M('log-hfsq-sign', 'Log', 'add (add (sub (add', 'add (add (add (add', 'C37: the sign of f^2/2', ['C37_accurate'])
M('log-one', 'Log', 'else if hx = 0x3ff00000#32 ∧ ui <<< 32 = 0#64 then', 'else if hx = 0x3ff00000#32 then',
  'C37: only 1 has logarithm 0', ['C37_zero_iff', 'C37_accurate'])
M('log-nan', 'Log', 'else if 0x7ff00000#32 ≤ hx then', 'else if 0x7ff00000#32 < hx then', 'C37: log of infinity', ['C37_special_cases'])
M('log-neg', 'Log', '''    else if hx >>> 31 ≠ 0#32 then
      pure (div (sub x x) (ofDec 0 1))
''', '', 'C37: log of a negative number is NaN', ['C37_special_cases', 'C37_lnSpec'])

# --- tables ---
M('table-bias14-point', 'Constants', '(56710324, 4), (55419788, 4)', '(56710324, 5), (55419788, 4)',
  'C54: every bias is the mean excess of the raw estimate', ['C54_bias_tables', 'C55_plus_accuracy', 'C62_plus_tail'])
M('table-raw16-swap', 'Constants', '(480623584, 4), (488627074, 4)', '(488627074, 4), (480623584, 4)',
  'C30: the table of raw estimates is increasing', ['C30_tables_sorted_partial', 'C54_bias_tables'],
  'import Verif\nopen HLL F64\n#guard (Constants.RAW_ESTIMATE_DATA.getD 12 []).getD 1 nan = fin 48862.7074 ∨ '
  'F64.le ((Constants.RAW_ESTIMATE_DATA.getD 12 []).getD 2 nan) ((Constants.RAW_ESTIMATE_DATA.getD 12 []).getD 1 nan)\n')
M('table-raw12-missing', 'Constants', '(3586451, 3), (364338, 2), (37004104, 4)', '(3586451, 3), (37004104, 4)',
  'C54: the tables of a precision have the same length', ['C54_bias_tables', 'C29_bias_lookup'],
  'import Verif\nopen HLL F64\n#guard (Constants.RAW_ESTIMATE_DATA.getD 8 []).length ≠ (Constants.BIAS_DATA.getD 8 []).length\n')
M('table-rows-swapped', 'Constants', 'raw9, raw10, raw11', 'raw10, raw9, raw11',
  'C54: the rows belong to the precisions in order', ['C54_bias_tables', 'C55_plus_accuracy'])

# --- work and storage ---
M('tmpset-1000', 'Plus', 'let n ← mulUsize cfg s.tmpset.length 100', 'let n ← mulUsize cfg s.tmpset.length 1000',
  'C61: merges are rare', ['C61_insert_work'])
M('insert-always-merges', 'Plus', 'if n > s.counts.2.2 then mergeSparse cfg ord s else pure s', 'mergeSparse cfg ord s',
  'C61: merges are rare', ['C61_insert_work'])
M('count-densifies', 'Plus', '''  let s ← (match s.registers with
    | none => mergeSparse cfg ord s
    | some _ => pure s : R (Plus I))
  match s.registers with
  | some registers => do
    let c''', '''  let s ← (match s.registers with
    | none => do
      let s ← mergeSparse cfg ord s
      if s.registers.isNone then sparseToNormal cfg s else pure s
    | some _ => pure s : R (Plus I))
  match s.registers with
  | some registers => do
    let c''', 'C12: count has no observable effect; C20: sparse exactly while the codes fit',
  ['plus_refines', 'C12_plus_count_pure', 'C20_sparse_iff_fits', 'C24_sparse_accurate'], PLUSD)

# --- accuracy ---
M('sparse-m-25', 'Plus', '''    let p ← subU8 cfg PRIME_PRECISION 1
    let c1''', '''    let p ← subU8 cfg PRIME_PRECISION 0
    let c1''', 'C24: the count of a sparse sketch is linear counting over 2^24 cells', ['plus_refines'])
M('plus-hash-32', 'Plus', '''  insertHash cfg ord s (s.builder value)
''', '''  insertHash cfg ord s ((s.builder value).setWidth 32 |>.setWidth 64)
''', 'C51: all 64 bits of the hash are used', ['plus_refines', 'C51_plus_accuracy_large', 'C55_plus_accuracy', 'C62_plus_tail'], PLUSD)
M('plus-hash-rotated', 'Plus', '''  insertHash cfg ord s (s.builder value)
''', '''  insertHash cfg ord s ((s.builder value).rotateLeft 1)
''', 'C14: registers are those of the hash (here of the rotated hash, as accurate)', ['plus_refines', 'C14_plus_registers'], PLUSD)
M('pf-hash-half', 'PF', 'let hash : U32 := hash64.setWidth 32', 'let hash : U32 := (hash64 &&& 0xffff#64).setWidth 32',
  'C47: all 32 bits are used', ['pf_refines', 'C47_pf_accuracy', 'C56_pf_accuracy', 'C62_pf_tail'], PFD)
M('pf-linear-5m', 'PF', 'F64.ofDec 25 1', 'F64.ofDec 50 1', 'C39: linear counting up to 2.5 m', ['pf_refines', 'C39_pf_estimator'])
M('pf-two32', 'PF', 'let b ← shl cfg 1#64 32', 'let b ← shl cfg 1#64 31', 'C39: the large range correction uses 2^32',
  ['pf_refines', 'C39_pf_estimator', 'C53_pf_overestimates'])
M('bias-twice', 'Plus', 'pure (F64.sub raw bias)', 'pure (F64.sub (F64.sub raw bias) bias)', 'C55: the bias is subtracted once',
  ['plus_refines', 'C55_plus_accuracy', 'C60_plus_bounds', 'C62_plus_tail'], PLUSD)
M('no-bias', 'Plus', 'pure (F64.sub raw bias)', 'pure raw', 'C55: the bias is subtracted',
  ['plus_refines', 'C55_plus_accuracy', 'C60_plus_bounds', 'C62_plus_tail', 'C82_plus_corrected'], PLUSD)
M('threshold-reversed', 'Plus', 'if F64.le correction t then pure correction', 'if F64.le t correction then pure correction',
  'C39: linear counting below the threshold', ['plus_refines', 'C39_plus_estimator', 'C55_plus_accuracy', 'C82_plus_linear',
  'C82_below'], PLUSD)
M('sum-from-one', 'Common', 'if cfg.sumFromNegZero then negZero else fin 0', 'if cfg.sumFromNegZero then negZero else one',
  'C48: the sum starts from zero', ['C48_plus_sum_start', 'C48_pf_sum_start', 'pf_refines'], PFD)

# --- search ---
M('search-branchless', 'Plus', 'if o = .gt then base else mid', 'if o = .lt then base else mid', 'C49: the search keeps its promise',
  ['C49_search_partial', 'C29_bias_lookup'])
M('search-lt', 'Plus', '| .lt => binarySearchLoop cmp fuel (mid + 1) right', '| .lt => binarySearchLoop cmp fuel mid right',
  'C49: the search ends', ['C49_search_partial', 'C29_bias_lookup'])
M('search-err', 'Plus', '    | .lt => pure (.inr (base + 1))', '    | .lt => pure (.inr base)', 'C49: the position to insert at', ['C49_search_partial', 'C29_bias_lookup'])

# --- logarithm ---
M('log-ln2lo', 'Log', 'ofDec 190821492927058770002 30', 'ofDec 190821492927058770002 29', 'C59: ln 2 is split into two parts',
  ['C59_ln2_split', 'C59_one_ulp', 'C37_accurate'])
M('log-ln2hi', 'Log', 'ofDec 693147180369123816490 21', 'ofDec 693147180559945309417 21', 'C59: the upper part of ln 2 has trailing zeros',
  ['C59_ln2_split', 'C59_one_ulp'])
M('log-lg7', 'Log', 'ofDec 1479819860511658591 19', 'ofDec 1429819860511658591 19', 'C59: the last coefficient', ['C37_constants', 'C37_polynomial', 'C59_one_ulp'])
M('log-s', 'Log', 'div f (add (ofDec 20 1) f)', 'div f (sub (ofDec 20 1) f)', 'C37: s = f/(2+f)', ['C37_accurate', 'C59_one_ulp'])
M('log-sqrt2', 'Log', 'let d ← subU32 cfg 0x3ff00000#32 0x3fe6a09e#32', 'let d ← subU32 cfg 0x3ff00000#32 0x3fe5a09e#32',
  'C37: reduction to the interval around 1', ['C37_reduction', 'C37_accurate'])

# --- structure ---
M('regs-lane-order', 'Registers', 'let v ← shl cfg value (rm * SIZE)\n      let buf ← setIndex r.buf qu (w ||| v)',
  'let v ← shl cfg value ((perWord SIZE - 1 - rm) * SIZE)\n      let buf ← setIndex r.buf qu (w ||| v)',
  'C15: a register is written where it is read', ['C15_registers_independent_maxima', 'plus_refines', 'pf_refines'], PFD)
M('serde-precision', 'Serde', '("precision", .num s.precision)', '("precision", .num 14)', 'C35: a reloaded sketch keeps its precision',
  ['C35_plus_reload', 'C35_pf_reload'], None, 2)

# --- helpers; repairs of the defects, after which the refutations must fail ---
M('ceil-extra', 'Registers', '  let b ← subUsize cfg a 1\n  pure (b / denom)', '  pure (a / denom)', 'C63: ceil rounds up, an exact quotient is kept', ['C63_ceil'])
M('extract32-shift', 'Registers', 'let b ← subU8 cfg 32 d', 'let b ← subU8 cfg 31 d', 'C63: extract yields hi - lo bits', ['C63_extract32'])
M('estimate-raw-zeros', 'Common', 'addUsize cfg zeros (if v = 0#32 then 1 else 0)', 'addUsize cfg zeros (if v = 0#32 then 0 else 1)',
  'C63: estimate_raw counts the empty registers', ['C63_estimate_raw'])
M('repair-square', 'Common', 'let c2 ← mulUsize cfg count count', 'let c2 ← pure (count * count)',
  'C28, C68: on narrow targets count fails for the larger precisions', ['C28_plus_refuted', 'C28_pf_refuted_checked', 'C28_pf_refuted_release', 'C68_pf_checked', 'C68_pf_release'])
M('repair-large-range', 'PF', '    pure (F64.mul (F64.mul (F64.neg Common.one) two32)\n      (ln (F64.sub Common.one (F64.div raw two32))))', '    pure raw',
  'C27, C53: the large range correction fails and overestimates', ['C27_pf_refuted', 'C53_pf_overestimates', 'C39_pf_estimator', 'pf_refines', 'C83_pf_nan', 'C83_pf_some_nan'])
M('repair-deserialize', 'Serde', '    let sparse ← deDifInt cfg (← required s)\n', '    let sparse ← deDifInt cfg (← required s)\n    if sparse.count = 0 ∧ sparse.buf ≠ [] then none else\n',
  'C36: malformed payloads are accepted', ['C36_plus_refuted'])
M('threshold-5-paper', 'Plus', '| 5 => pure (F64.ofNat 10)', '| 5 => pure (F64.ofNat 20)', 'C39: the threshold of the code', ['plus_refines', 'C39_plus_estimator'])
M('alpha-64', 'Common', '| 64 => ofDec 709 3', '| 64 => ofDec 719 3', 'C39: the constant for 64 registers', ['plus_refines', 'pf_refines', 'C39_plus_estimator'])

# --- behaviour on sketches that are not well formed ---
M('regs-zeros-saturating', 'Registers', 'let zeros ← subUsize cfg r.zeros 1', 'let zeros ← (pure (r.zeros - 1) : R Nat)',
  'C36: a payload whose number of zeros is too small makes some program panic', ['C36_pf_exact', 'C36_plus_dense_exact'])
M('pf-merge-take', 'PF', 'mergeRegs cfg 0 (other.registers.iter SIZE) s.registers',
  'mergeRegs cfg 0 ((other.registers.iter SIZE).take (2 ^ other.precision)) s.registers',
  'C36: a payload with nonzero registers in excess makes some program panic', ['C36_pf_exact', 'C36_pf_exact_wrapping'])
M('plus-merge-take', 'Plus', 'mergeRegs cfg 0 (otherRegs.iter SIZE) registers',
  'mergeRegs cfg 0 ((otherRegs.iter SIZE).take (2 ^ other.precision)) registers',
  'C36: a payload with nonzero registers in excess makes some program panic',
  ['C36_plus_dense_exact', 'C36_plus_dense_exact_wrapping'])
M('pf-prec-masked', 'PF', 'let k ← subU8 cfg 32 s.precision', 'let k ← subU8 cfg 32 (s.precision % 32)',
  'C36: a payload with a precision above 31 makes some program panic', ['C36_pf_exact'])

M('sparse-zeros-saturating', 'Plus', 'let zeros ← subUsize cfg s.counts.2.1 s.sparse.count', 'let zeros ← (pure (s.counts.2.1 - s.sparse.count) : R Nat)',
  'C36: a sparse payload that can hold more codes than it says makes some program panic', ['C36_plus_sparse_exact'])
M('sparse-m-precision', 'Plus', 'let r ← Registers.withCount cfg SIZE s.counts.1', 'let r ← Registers.withCount cfg SIZE (2 ^ s.precision)',
  'C36: a sparse payload with too small a number m makes some program panic', ['C36_plus_sparse_exact', 'C36_plus_sparse_exact_wrapping'])
M('sparse-cut-tail', 'Encoding', 'let b ← index v (start + i)', 'let b ← (pure (v.getD (start + i) 0) : R U8)',
  'C36: a sparse payload cut off in the middle of a number makes some program panic',
  ['C36_plus_sparse_exact', 'C36_plus_sparse_exact_wrapping'])
M('sparse-long-number', 'Encoding', 'let part ← shl cfg (b.setWidth 32) (i * 7)', 'let part ← shl cfg (b.setWidth 32) (i * 7 % 32)',
  'C36: a sparse payload with a number of six bytes makes some program panic', ['C36_plus_sparse_exact'])
M('sparse-many-codes', 'Plus', 'if s.sparse.len > s.counts.2.2 then sparseToNormal cfg s else pure s',
  'if s.sparse.len > s.counts.2.2 ∨ s.sparse.count > s.counts.2.1 then sparseToNormal cfg s else pure s',
  'C36: a sparse payload that can hold more codes than it says makes some program panic', ['C36_plus_sparse_exact'])

M('sparse-sum-wraps', 'Encoding', 'let last ← addU32 cfg it.last dif', 'let last ← (pure (it.last + dif) : R U32)',
  'C36: a sparse payload with codes from 2^32 makes some program panic', ['C36_plus_sparse_exact'])

# --- errors, storage ---
M('errors-swapped', 'Errors', '| .InvalidPrecision => f.pad "precision is out of bounds".toList\n  | .IncompatiblePrecision => f.pad "precisions must be equal".toList',
  '| .InvalidPrecision => f.pad "precisions must be equal".toList\n  | .IncompatiblePrecision => f.pad "precision is out of bounds".toList',
  'C71: the texts of the errors', ['C71_plus_errors', 'C71_pf_errors', 'C71_display'])
M('errors-same', 'Errors', 'f.pad "precisions must be equal".toList', 'f.pad "precision is out of bounds".toList',
  'C71: the texts of the errors are different', ['C71_plus_errors', 'C71_display', 'C71_distinct'])
M('merge-tmpset-unbounded', 'Plus', 'let s ← maybeMergeSparse cfg ordS { s with tmpset := tmp }', 'let s := { s with tmpset := tmp }',
  'C19: the temporary set is bounded after merges too', ['C19_storage_bounded'])
M('insert-tmpset-unbounded', 'Plus', '    let s := { s with tmpset := hashSetInsert s.tmpset code }\n    maybeMergeSparse cfg ord s',
  '    let s := { s with tmpset := hashSetInsert s.tmpset code }\n    pure s',
  'C19: the temporary set is bounded', ['C19_storage_bounded'])

# --- the evaluation program ---
M('evl-write-u32', 'Evaluation', '⟨i.setWidth 64⟩', '⟨(i.setWidth 16).setWidth 64⟩',
  'C78: the hasher passes all bits through', ['C78_pf_hashes', 'C78_pf_cardinalities', 'C78_pf_experiment'])
M('evl-write-u64', 'Evaluation', '(i : U64) : PassThroughHasher := ⟨i⟩', '(i : U64) : PassThroughHasher := ⟨(i.setWidth 32).setWidth 64⟩',
  'C78: the hasher passes all bits through', ['C78_plus_hashes', 'C78_plus_cardinalities', 'C78_plus_experiment'])
M('evl-write-ignored', 'Evaluation', '(h : PassThroughHasher) : U64 := h.state', '(_ : PassThroughHasher) : U64 := 0',
  'C78: the hasher passes values through', ['C78_plus_hashes', 'C78_pf_hashes', 'C78_plus_experiment', 'C78_pf_experiment_at'])
M('evl-line-number', 'Evaluation', 'let k ← addUsize cfg i 1', 'let k ← addUsize cfg i 0',
  'C78: a line has the number of values inserted', ['C78_plus_hashes', 'C78_pf_hashes', 'C78_plus_relative_error'])
M('evl-estimate-first', 'Evaluation', '''    let s ← api.insert (ords n).1 .insert s x
    let k ← addUsize cfg i 1
    let (s, c) ← api.count (ords (n + 1)).1 s
''', '''    let k ← addUsize cfg i 1
    let (s, c) ← api.count (ords (n + 1)).1 s
    let s ← api.insert (ords n).1 .insert s x
''', 'C78: the estimate is made after the insertion', ['C78_plus_hashes', 'C78_pf_hashes', 'C78_plus_relative_error'])
M('evl-no-newline', 'Evaluation', "values.flatMap fun v => v ++ ['\\n']", 'values.flatMap fun v => v',
  'C78: one number per line', ['C78_files', 'C78_plus_hashes'])
M('evl-separator', 'Evaluation', "display e.1 ++ [' '] ++ display e.2", "display e.1 ++ [','] ++ display e.2",
  'C78: the columns are separated by a space', ['C78_plus_hashes', 'C78_pf_cardinalities', 'C78_pf_experiment'])
M('evl-columns', 'Evaluation', "display e.1 ++ [' '] ++ display e.2", "display e.2 ++ [' '] ++ display e.1",
  'C78: the true number comes first', ['C78_plus_hashes', 'C78_pf_cardinalities', 'C78_plus_relative_error'])
M('evl-parse-wraps', 'Evaluation', 'if acc * 10 + d < 2 ^ w then parseDigits w (acc * 10 + d) cs else none',
  'parseDigits w ((acc * 10 + d) % 2 ^ w) cs', 'C78: a number that does not fit is an error', ['C78_files', 'C78_panics'])
M('evl-drop-last-line', 'Evaluation', '| [] => if cur = [] then [] else [cur]', '| [] => []',
  'C78: the last line need not end with a line break', ['C78_files', 'C78_plus_cardinalities'])
M('evl-plus-32', 'Evaluation', 'runHashes cfg (Plus.api cfg ln c) ords 64', 'runHashes cfg (Plus.api cfg ln c) ords 32',
  'C78: HyperLogLogPlus reads 64-bit hashes', ['C78_plus_hashes', 'C78_plus_experiment', 'C78_panics'])
M('evl-at-off-by-one', 'Evaluation', 'insertRandom cfg api ords rng (t - c) n c s', 'insertRandom cfg api ords rng (t + 1 - c) n c s',
  'C78: as many values as the file says', ['C78_plus_cardinalities', 'C78_pf_cardinalities', 'C78_plus_experiment_at'])
M('evl-at-constant-rng', 'Evaluation', 'api.insert (ords n).1 .insert s (rng c)', 'api.insert (ords n).1 .insert s (rng 0)',
  'C78: every value is drawn anew', ['C78_plus_cardinalities', 'C78_pf_cardinalities', 'C78_pf_experiment_at'])
M('evl-round', 'Evaluation', 'min ⌊q⌋.toNat', 'min ⌊2 * q⌋.toNat', 'C78: the error of the estimates in the output',
  ['C78_plus_experiment', 'C78_pf_experiment', 'C78_plus_relative_error', 'C78_plus_experiment_at', 'C78_pf_experiment_at'])
M('evl-wrap-u32', 'Evaluation', 'min ⌊q⌋.toNat (2 ^ 64 - 1)', '⌊q⌋.toNat % 2 ^ 32', 'C78: estimates above 2^32 are possible',
  ['C78_plus_experiment', 'C78_plus_relative_error'])
M('evl-name', 'Evaluation', '"-r".toList ++ display r ++', '"-r".toList ++ display (r % 256) ++', 'C78: every run has its own file', ['C78_names'])

# --- the evaluation program with several threads ---
PAR = 'import Verif\nopen HLL Evl\n'
M('par-cards-name', 'Parallel', """size ++ "-r".toList ++ display r ++ ".dat".toList""", """size ++ "-r".toList ++ display (r / 10) ++ ".dat".toList""",
  'C89: runs of mode cardinalities have different output files', ['C89_plus_cardinalities', 'C89_pf_cardinalities'],
  PAR + '#guard cardsName 14 "64".toList 1 = cardsName 14 "64".toList 2\n')
M('par-hashes-name', 'Parallel', "display p ++ ['-'] ++ base", "display p ++ ['-'] ++ base.take 5",
  'C89: files with different names have different output files', ['C89_plus_hashes', 'C89_pf_hashes'],
  PAR + '#guard hashesName 14 "hashes-1".toList = hashesName 14 "hashes-2".toList\n')
M('par-first-part', 'Parallel', "c ≠ [] ∧ c ≠ ['.']).getLast?", "c ≠ [] ∧ c ≠ ['.']).head?",
  'C89: the name is the last part of the path', ['C89_file_name'],
  PAR + '#guard fileName "data/x".toList = some "data".toList\n')
M('par-append', 'Parallel', "Call t F (.ready y) (Function.update F t.output (some [])) (.writing 0 y)",
  "Call t F (.ready y) (Function.update F t.output (some ((F t.output).getD []))) (.writing ((F t.output).getD []).length y)",
  'C89: an output file of an earlier run is replaced', ['C89_tasks', 'C89_gen', 'C89_plus_hashes'])
M('par-no-truncate', 'Parallel', "Call t F (.ready y) (Function.update F t.output (some [])) (.writing 0 y)",
  "Call t F (.ready y) (Function.update F t.output (some ((F t.output).getD []))) (.writing 0 y)",
  'C89: an output file of an earlier run is replaced', ['C89_tasks', 'C89_gen', 'C89_plus_hashes'])
M('par-gen-shared', 'Parallel', 'output := loc (join output (generateName size r))', 'output := loc (join output (generateName size 0))',
  'C89: runs of evl gen have different output files', ['C89_gen'])
M('par-short-read', 'Parallel', '| eof {F a x got y} : t.input = some a → F a = some x → x.drop got.length = [] → t.work got = .ok y →',
  '| eof {F a x got y} : t.input = some a → F a = some x → t.work got = .ok y →',
  'C89: a file is read to its end, whatever a read returns', ['C89_tasks', 'C89_plus_hashes', 'C89_pf_cardinalities'])
M('par-short-write', 'Parallel', '| close {F pos} : Call t F (.writing pos []) F .finished', '| close {F pos y} : Call t F (.writing pos y) F .finished',
  'C89: all of the output is written, whatever a write accepts', ['C89_tasks', 'C89_gen', 'C89_plus_hashes'])

# the script of the experiments
EXP = 'import Verif\nopen HLL Exp\ndef gen (f : Nat) (m : ℤ) : List ℤ := match generateCardinalities f m with\n  | some (.ok l) => l\n  | _ => []\n'
ST = EXP + 'def st (fs : List String) := calculateStatistics (fun l => l.headD .nan) (fun l => l.getLastD .nan) (fun _ => .nan) (fs.map String.toList)\n'
M('exp-ratio', 'Experiment', 'F64.ofDec 1007 3', 'F64.ofDec 1070 3', 'C81: the ratio is 1.007', ['C81_cardinalities'],
  EXP + '#guard (gen 1000 100).getLastD 0 > 101\n')
M('exp-le', 'Experiment', '| .fin q => decide (q < n)', '| .fin q => decide (q ≤ n)', 'C81: only the last element reaches the maximum',
  ['C81_cardinalities'], EXP + '#guard let z := (gen 9000 (2 ^ 53)).getLastD 0; (gen 9000 z).getLastD 0 ≠ z\n')
M('exp-no-last', 'Experiment', 'else some (.ok (insert k data))', 'else some (.ok data)', 'C81: the last element reaches the maximum',
  ['C81_cardinalities'], EXP + '#guard (gen 2000 100).getLastD 0 < 100\n')
M('exp-order', 'Experiment', 'data.sort (· ≤ ·)', 'data.sort (· ≥ ·)', 'C81: the list is increasing', ['C81_cardinalities', 'C81_plus_cardinalities'],
  EXP + '#guard (gen 2000 100).headD 0 ≠ 1\n')
M('exp-ceil', 'Experiment', '.ok (if 0 ≤ q then ⌊q⌋ else ⌈q⌉)', '.ok ⌈q⌉', 'C81: int takes the integer part', ['C81_cardinalities'],
  EXP + '#guard gen 2000 2 = [1, 2, 3]\n')
M('exp-inf', 'Experiment', '| .inf _ => .error .OverflowError', '| .inf _ => .ok 0', 'C81: int of infinity is an OverflowError', ['C81_overflow'])
M('exp-start', 'Experiment', 'max fuel (F64.ofNat 1) ∅', 'max fuel (F64.ofNat 2) ∅', 'C81: the series starts with 1', ['C81_cardinalities'],
  EXP + '#guard (gen 2000 100).headD 0 ≠ 1\n')
M('exp-join', 'Experiment', "List.intercalate ['\\n'] (cardinalities.map", "List.intercalate [' '] (cardinalities.map",
  'C81: evl reads the file of cardinalities', ['C81_plus_cardinalities', 'C81_pf_cardinalities', 'C81_same_directory'])
M('exp-no-abs', 'Experiment', 'F64.div (abs (F64.sub b a)) a', 'F64.div (F64.sub b a) a', 'C81: the relative error is positive',
  ['C81_statistics', 'C81_plus_cardinalities', 'C81_pf_hashes'],
  ST + '#guard st ["2 1\\n"] ≠ .ok ([2], [.fin (1 / 2)], [.fin (1 / 2)], [.nan])\n')
M('exp-denominator', 'Experiment', 'F64.div (abs (F64.sub b a)) a', 'F64.div (abs (F64.sub b a)) b', 'C81: errors are relative to the true number',
  ['C81_statistics', 'C81_plus_cardinalities', 'C81_pf_hashes'],
  ST + '#guard st ["2 1\\n"] ≠ .ok ([2], [.fin (1 / 2)], [.fin (1 / 2)], [.nan])\n')
M('exp-columns', 'Experiment', 'let b ← item line 1\n  let a ← item line 0', 'let b ← item line 0\n  let a ← item line 1', 'C81: the true number is in the first column',
  ['C81_statistics', 'C81_plus_hashes'],
  ST + '#guard st ["2 1\\n"] ≠ .ok ([2], [.fin (1 / 2)], [.fin (1 / 2)], [.nan])\n')
M('exp-zero', 'Experiment', '  if a = .fin 0 ∨ a = .negZero then .error .ZeroDivisionError\n  else pure', '  pure', 'C81: division by zero is an error', ['C81_zero'],
  ST + '#guard st ["0 1\\n"] ≠ .error .ZeroDivisionError\n')
M('exp-first-file', 'Experiment', 'let values ← lines.mapM lineValues', 'let values ← (lines.take 1).mapM lineValues', 'C81: every run is used',
  ['C81_statistics', 'C81_pf_cardinalities', 'C81_same_directory'],
  ST + '#guard st ["2 1\\n", "2 2\\n"] ≠ .ok ([2], [.fin (1 / 2)], [.fin 0], [.nan])\n')
M('exp-no-strip', 'Experiment', '  match strip s with', '  match s with', 'C81: float accepts the line break', ['C81_statistics', 'C81_plus_hashes'],
  ST + '#guard st ["2 1\\n"] ≠ .ok ([2], [.fin (1 / 2)], [.fin (1 / 2)], [.nan])\n')
M('exp-float-base', 'Experiment', 'fun n d => n * 10 + (d.toNat - 48)', 'fun n d => n * 8 + (d.toNat - 48)', 'C81: numbers are decimal', ['C81_statistics'],
  ST + '#guard st ["10 20\\n"] ≠ .ok ([10], [.fin 1], [.fin 1], [.nan])\n')
M('exp-skip-line', 'Experiment', 'let rest ← statisticsLoop fuel (files.map fun fp => (readline fp).2)',
  'let rest ← statisticsLoop fuel (files.map fun fp => (readline (readline fp).2).2)', 'C81: a row for every cardinality',
  ['C81_statistics', 'C81_plus_cardinalities', 'C81_plus_hashes'],
  ST + '#guard st ["2 1\\n4 2\\n"] ≠ .ok ([2, 4], [.fin (1 / 2), .fin (1 / 2)], [.fin (1 / 2), .fin (1 / 2)], [.nan, .nan])\n')
M('exp-index', 'Experiment', '  | none => .error .IndexError', '  | none => .ok (F64.ofNat 1)', 'C81: a missing column is an error', ['C81_same_directory'],
  ST + '#guard st ["1\\n2"] ≠ .error .IndexError\n')

# --- JSON text ---
JS = PRE + '''open Json
def sk : Plus Nat := ⟨b0, 4, (16, 2 ^ 24, 12), [7#32, 9#32], ⟨1, 300#32, [172#8, 2#8]⟩, none⟩
def sd : Plus Nat := ⟨b0, 4, (16, 2 ^ 24, 12), [], ⟨0, 0#32, []⟩, some ⟨[1#32, 0#32, 0#32, 0#32], 16, 15⟩⟩
def rt (f : Format) (s : Plus Nat) : Bool := match Plus.ofText Cfg.debug64 c0 (Plus.toText f c0 .id s) with
  | some t => t.precision == s.precision && t.counts == s.counts && t.tmpset.length == s.tmpset.length &&
    t.sparse.buf == s.sparse.buf && t.registers.isSome == s.registers.isSome
  | none => false
def bad (t : List Char) : Bool := (Plus.ofText Cfg.debug64 c0 t).isSome
'''
RT = JS + '#guard !rt compact sk || !rt compact sd || !rt pretty sk || !rt pretty sd\n'
J2 = ['C86_plus_text', 'C86_pf_text', 'C86_plus_api', 'C86_pf_api', 'C86_plus_reload']
M('json-no-comma', 'Json', "  | v :: l => ',' :: f.line d ++ text f d v", "  | v :: l => f.line d ++ text f d v", 'C86: elements are separated', J2, RT)
M('json-trailing', 'Json', '  | .done v => if isSpace c then some (.done v) else none', '  | .done v => some (.done v)',
  'C86: a text followed by another one is rejected', ['C86_plus_continued', 'C86_pf_continued'],
  JS + "#guard bad (Plus.toText compact c0 .id sk ++ ['}'])\n")
M('json-unclosed', 'Json', '  | some (.done v) => some v\n  | _ => none',
  '  | some (.done v) => some v\n  | some (.inside [.map l _] .after) => some (.map l.reverse)\n  | _ => none',
  'C86: a text that was cut short is rejected', ['C86_plus_truncated', 'C86_pf_truncated'],
  JS + '#guard bad ((Plus.toText compact c0 .id sk).dropLast)\n')
M('json-null-some', 'Json', '  | .unit => .none\n  | v => .some v', '  | v => .some v', 'C86: null is read as None', ['C86_plus_text', 'C86_plus_api', 'C86_plus_reload'], RT)
M('json-some-none', 'Json', '  | .unit => .none\n  | v => .some v', '  | _ => .none', 'C86: registers are read', ['C86_plus_text', 'C86_plus_api', 'C86_plus_reload'], RT)
M('json-depth', 'Json', 'if o.length < 127 then', 'if o.length < 2 then', 'C86: sketches have three levels', J2, RT)
M('json-number', 'Json', '(.num (10 * n + (c.toNat - 48)))', '(.num (n + (c.toNat - 48)))', 'C86: numbers are decimal', J2, RT)
M('json-reversed', 'Json', "    else if c == ']' then some (complete (.seq l.reverse) o)", "    else if c == ']' then some (complete (.seq l) o)", 'C86: elements keep their order', J2, RT)
M('json-space', 'Json', "def isSpace (c : Char) : Bool := c == ' ' || c == '\\n'", "def isSpace (c : Char) : Bool := c == '\\n'",
  'C86: the indented text is read', ['C86_plus_text'], RT)
M('json-zero', 'Json', 'if n = 0 then none else some', 'if n < 10 then none else some', 'C86: numbers of several digits are read', J2, RT)
M('json-field', 'Json', 'if e.1 = "registers" then option e.2', 'if e.1 = "sparse" then option e.2', 'C86: the field of type Option is registers',
  ['C86_plus_text', 'C86_plus_api', 'C86_plus_reload'], RT)
M('json-key-escape', 'Json', '"\' :: k.toList ++ \'"\' :: \':\' :: f.colon ++ text f d v ++ textMap', '"\' :: k.toList.reverse ++ \'"\' :: \':\' :: f.colon ++ text f d v ++ textMap',
  'C86: keys are read as written', J2, RT)
M('json-pad', 'Json', '  | .num n => Nat.toDigits 10 n', '  | .num n => List.replicate 20 \' \' ++ Nat.toDigits 10 n', 'C86: the size of the compact text', ['C86_plus_size', 'C86_pf_size'],
  JS + '#guard (Plus.toText compact c0 .id sd).length > 4 * 2 ^ 4 + 4 + 250\n')
M('pf-no-linear', 'PF', '(F64.ofNat s.count)) ∧ zeros ≠ 0 then', '(F64.ofNat s.count)) ∧ s.count < zeros then',
  'C72: a HyperLogLogPF can lose a factor 0.47 p when linear counting is left (without linear counting the count only grows)',
  ['pf_refines', 'C72_pf_sharp', 'C79_pf_few_values', 'C82_pf_linear', 'C39_pf_estimator'], PFD)
M('linear-log-squared', 'Common', 'mul (ofNat count) (ln (div (ofNat count) (ofNat zeros)))',
  'mul (mul (ofNat count) (ofNat count)) (ln (div (ofNat count) (ofNat zeros)))',
  'C72/C79: few values are counted almost exactly',
  ['plus_refines', 'pf_refines', 'C79_plus_few_values', 'C79_pf_few_values', 'C79_small_cardinalities', 'C72_plus_drop',
   'C72_pf_drop', 'C74_plus_error_everywhere', 'C87_plus_error_everywhere', 'C84_plus_member', 'C85_plus_rms_few'], PFD)

M('log-overflow', 'Log', 'let d ← subU32 cfg 0x3ff00000#32 0x3fe6a09e#32', 'let d ← subU32 cfg 0x3fe6a09e#32 0x3ff00000#32',
  'C37: log never panics', ['C37_never_panics', 'C37_accurate', 'C59_relative'])
M('plus-mean-of-two', 'Plus', '    if F64.le correction t then pure correction\n    else correctedRaw cfg precision m registers',
  '    if F64.le correction t then pure correction\n    else do\n      let c ← correctedRaw cfg precision m registers\n      pure (F64.div (F64.add c correction) (F64.ofNat 2))',
  'C73: only linear counting depends on the logarithm (here the mean of both estimates is returned)',
  ['plus_refines', 'C73_plus', 'C39_plus_estimator'], PLUSD)

# --- the command line and the script ---
CMD = 'import Verif\nopen HLL Evl Exp\n'
FIRST = ['C90_plus_hashes', 'C90_pf_hashes']
SECOND = ['C90_plus_cardinalities', 'C90_pf_cardinalities']
M('cmd-option-name', 'Command', '{ name := "count" }, { name := "runs" }, { name := "output" }]',
  '{ name := "count" }, { name := "run" }, { name := "output" }]',
  'C90: evl gen accepts the command of the script', FIRST,
  CMD + '#guard (commandLine none (prepareCommand 1 "64".toList 10 2 "x".toList)).isNone\n')
M('cmd-one-input', 'Command', '{ name := "input", multiple := true }', '{ name := "input" }',
  'C90: evl run accepts several input files', FIRST,
  CMD + '#guard (commandLine none (runHashesCommand 1 "hll".toList 14 "x".toList ["a".toList, "b".toList])).isNone\n')
M('cmd-types-swapped', 'Command', '      if valueOf m "type" = some "hll".toList then',
  '      if valueOf m "type" = some "hllp".toList then',
  'C90: --type hllp runs HyperLogLogPlus', ['C90_plus_hashes', 'C90_plus_cardinalities'])
M('cmd-size-64', 'Command', 'some "32".toList then generateMain cfg (fun r i => (env.draw32 r i).toNat) threads m',
  'some "32".toList then generateMain cfg (fun r i => (env.draw64 r i).toNat) threads m',
  'C90: --size 32 writes values of 32 bits, which run --type hll can read', ['C90_pf_hashes'])
M('cmd-no-threads', 'Command', 'let threads := if j = 0 then env.cpus else j', 'let threads := j',
  'C90: every execution ends with all tasks finished, also for --jobs 0 (here there is no thread)', FIRST + SECOND)
M('cmd-precision-16', 'Command', 'let p ← unwrap (parse 8 precision)', 'let p ← unwrap (parse 16 precision)',
  'C90: a precision of 256 makes the program panic before the loop', ['C90_precision'])
M('cmd-hyphen-values', 'Command', "def isValue (t : Text) : Bool := t.head? ≠ some '-' || t = ['-']",
  "def isValue (t : Text) : Bool := t.take 2 ≠ ['-', '-']",
  'C90: negative numbers are rejected by the option parser', ['C90_rejected'],
  CMD + '#guard (commandLine none (prepareCommand 1 "64".toList (-10) 2 "x".toList)).isSome\n')
M('cmd-empty-input', 'Command', '  | some (_, []) => none\n', '',
  'C90: run on an empty directory is rejected', ['C90_rejected'],
  CMD + '#guard (commandLine none (runHashesCommand 1 "hll".toList 14 "x".toList [])).isSome\n')
M('cmd-runs-count', 'Command', '"--count".toList, str count,\n    "--runs".toList, str runs,',
  '"--count".toList, str runs,\n    "--runs".toList, str count,',
  'C90: prepare makes as many files as runs', FIRST)
M('cmd-glob-txt', 'Command', 'name.head? ≠ some \'.\' ∧ ".dat".toList <:+ name',
  'name.head? ≠ some \'.\' ∧ ".txt".toList <:+ name',
  'C90: the script finds the files that evl writes', FIRST + SECOND + ['C90_older'])
M('cmd-cards-path', 'Command', 'join output "cardinalities.dat".toList', 'join output "cardinalities.txt".toList',
  'C90: prepare writes cardinalities.dat', SECOND,
  CMD + '#guard cardinalitiesPath "x".toList = "x/cardinalities.txt".toList\n')
M('cmd-cards-size', 'Command', '(fun r => runPlusAt cfg ln c64 (env.ords r) (env.draw64 r)) "64".toList threads m',
  '(fun r => runPlusAt cfg ln c64 (env.ords r) (env.draw64 r)) "32".toList threads m',
  'C90: the files of run --type hllp --mode cardinalities are named s64', ['C90_plus_cardinalities'])
M('cmd-same-values', 'Command', 'genTask id size output ((List.range count).map (draw r)) r)',
  'genTask id size output ((List.range count).map (draw 0)) r)',
  'C90: every run has its own random values', FIRST)

# Claims registered later that the wrong programs above break as well.
# failing system calls
M('fail-write-ignored', 'Failing', "FCall t true F (.ordinary (.writing pos (kept ++ lost))) F (.unwinding pos kept)",
  "FCall t true F (.ordinary (.writing pos (kept ++ lost))) F (.ordinary (.writing pos kept))",
  'C91: the file of a finished run is complete, and a failed write makes the exit status 101', ['C91_tasks', 'C91_status', 'C91_success'])
M('fail-create-ignored', 'Failing', "FCall t true F (.ordinary (.ready y)) F (.ordinary .panicked)",
  "FCall t true F (.ordinary (.ready y)) F (.ordinary .finished)",
  'C91: a file that cannot be created makes the exit status 101', ['C91_tasks', 'C91_status', 'C91_success'])
M('fail-read-ends', 'Failing', "| readFails {F got} : FCall t true F (.ordinary (.reading got)) F (.ordinary .panicked)",
  "| readFails {F got y} : t.work got = .ok y → FCall t true F (.ordinary (.reading got)) F (.ordinary (.ready y))",
  'C91: a read that fails is not taken for the end of the file', ['C91_tasks', 'C91_status', 'C91_success'])
M('fail-status-0', 'Failing', "then 101 else 0", "then 0 else 0",
  'C91: the exit status is 101 if a call failed', ['C91_status', 'C91_success', 'C91_left_behind'])
M('fail-drop-start', 'Failing', "(Function.update F t.output (some (writeAt x pos piece)))\n        (.unwinding",
  "(Function.update F t.output (some (writeAt x 0 piece)))\n        (.unwinding",
  'C91: what is left behind is a beginning of the output', ['C91_tasks'])
M('fail-drop-again', 'Failing', "rest ≠ [] → FCall t true F (.unwinding pos rest) F (.ordinary .panicked)",
  "rest ≠ [] → FCall t true F (.unwinding pos rest) F (.unwinding pos rest)",
  'C91: every execution ends, also if no write succeeds any more', ['C91_ends'])
M('fail-abandon', 'Failing', "((∃ i, c.stage i = .ordinary .waiting) → ∃ i, c.stage i = .ordinary .panicked)", "True",
  'C91: with exit status 0 all runs were started and are finished', ['C91_status', 'C91_success'])

# input files
M('num-no-plus', 'Evaluation', "  | '+' :: cs => parseDigits w 0 cs\n", "", 'C92: a plus sign before a number is accepted', ['C92_load'])
M('num-minus', 'Evaluation', "  | '+' :: cs => parseDigits w 0 cs\n", "  | '+' :: cs => parseDigits w 0 cs\n  | '-' :: c :: cs => parseDigits w 0 (c :: cs)\n",
  'C92: a minus sign before a number is not accepted', ['C92_load'])
M('num-empty', 'Evaluation', "def parse (w : Nat) : Text → Option Nat\n  | [] => none", "def parse (w : Nat) : Text → Option Nat\n  | [] => some 0",
  'C92: an empty line is not accepted', ['C92_load', 'C92_plus_hashes', 'C92_pf_hashes'])
M('num-no-crlf', 'Evaluation', "def stripCR (l : Text) : Text := if l.getLast? = some '\\r' then l.dropLast else l", "def stripCR (l : Text) : Text := l",
  'C92: a carriage return before the line feed is accepted', ['C92_load', 'C92_plus_hashes', 'C92_pf_hashes'])
M('num-last-cr', 'Evaluation', "  | [] => if cur = [] then [] else [cur]\n  | c :: cs => if c = '\\n' then stripCR cur", "  | [] => if cur = [] then [] else [stripCR cur]\n  | c :: cs => if c = '\\n' then stripCR cur",
  'C92: a carriage return at the end of the text is not accepted', ['C92_load'])
M('num-skip-empty', 'Evaluation', "if c = '\\n' then stripCR cur :: linesFrom [] cs else", "if c = '\\n' then (if cur = [] then linesFrom [] cs else stripCR cur :: linesFrom [] cs) else",
  'C92: a file with an empty line is not accepted', ['C92_load', 'C92_plus_hashes', 'C92_plus_cardinalities'])
M('num-last-lost', 'Evaluation', "  | [] => if cur = [] then [] else [cur]\n  | c :: cs => if c = '\\n' then stripCR cur", "  | [] => []\n  | c :: cs => if c = '\\n' then stripCR cur",
  'C92: the last number counts also without a line feed after it', ['C92_load', 'C92_plus_hashes', 'C92_pf_cardinalities'])
M('num-width-off', 'Evaluation', 'if acc * 10 + d < 2 ^ w then parseDigits w (acc * 10 + d) cs else none', 'if acc * 10 + d + 1 < 2 ^ w then parseDigits w (acc * 10 + d) cs else none',
  'C92: the largest number of w bits is accepted', ['C92_load', 'C92_plus_hashes'])
M('square-in-f64', 'Common', "  let c2 ← mulUsize cfg count count\n  pure (div (mul (alpha count) (ofNat c2)) raw)",
  "  pure (div (mul (alpha count) (mul (ofNat count) (ofNat count))) raw)",
  'C28, C36: the square of m is computed in usize and can overflow',
  ['C36_plus_dense_all', 'C36_pf_exact', 'C28_plus_refuted'],
  PRE + '#guard (Plus.count Cfg.debug64 ln0 .id (⟨b0, 4, (2 ^ 63, 0, 0), [], ⟨0, 0, []⟩, '
  'some ⟨[0, 0, 0, 0], 16, 0⟩⟩ : Plus Nat)).isOk\n')
M('square-first', 'Plus', "  let zeros := registers.zeros\n  if zeros ≠ 0 then do\n    let correction",
  "  let _ ← mulUsize cfg m m\n  let zeros := registers.zeros\n  if zeros ≠ 0 then do\n    let correction",
  'C36: with linear counting the square of m is not computed',
  ['C36_plus_dense_all', 'C36_plus_dense_several'],
  PRE + '#guard !(Plus.count Cfg.debug64 ln0 .id (⟨b0, 4, (2 ^ 63, 0, 0), [], ⟨0, 0, []⟩, '
  'some ⟨[0, 0, 0, 0], 16, 2 ^ 63 + 16⟩⟩ : Plus Nat)).isOk\n')
M('linear-when-no-zeros', 'Plus', "  if zeros ≠ 0 then do\n    let correction := Common.linearCount ln m zeros",
  "  if 1 < zeros then do\n    let correction := Common.linearCount ln m zeros",
  'C17, C36: linear counting applies when one register is zero', ['C36_plus_dense_all'])

# the grammar of the command line
GEN = '"gen", "--size", "32", "--count", "1", "--runs", "1", "--output", "d"'
def CL(ws):
    return '(commandLine none (([%s] : List String).map String.toList))' % ws
M('cl-multiple-default', 'Command', '  multiple : Bool := false', '  multiple : Bool := true',
  'C94: only the option input can have several values', ['C94_accepted'],
  CMD + '#guard ' + CL(GEN.replace('"1", "--runs"', '"1", "2", "--runs"')) + '.isSome\n')
M('cl-hyphen', 'Command', "|| t = ['-']", "|| t = ['+']", 'C94: a hyphen alone is a value', ['C94_accepted'],
  CMD + '#guard ' + CL(GEN.replace('"d"', '"-"')) + '.isNone\n')
M('cl-stray-word', 'Command', "      match cur with\n      | none => none\n", "      match cur with\n      | none => parseArgs opts none m ts\n",
  'C94: a word without an option is rejected', ['C94_accepted'],
  CMD + '#guard ' + CL(GEN.replace('"--size"', '"x", "--size"')) + '.isSome\n')
M('cl-input-once', 'Command', "(valuesOf m o.name).isSome ∧ ¬ o.multiple then none", "(valuesOf m o.name).isSome then none",
  'C94: the option input can be given several times', ['C94_accepted', 'C94_hashes'],
  CMD + '#guard ' + CL('"run", "--type", "hll", "--mode", "hashes", "--precision", "4", "--output", "d", "--input", "a", "--input", "b"') + '.isNone\n')
M('cl-twice', 'Command', "if (valuesOf m o.name).isSome ∧ ¬ o.multiple then none else parseArgs opts (some (o, [])) m ts",
  "parseArgs opts (some (o, [])) m ts",
  'C94: an option other than input cannot be given twice', ['C94_accepted'],
  CMD + '#guard ' + CL(GEN + ', "--count", "2"') + '.isSome\n')
M('cl-last-input', 'Command', "  | l => some (l.flatMap Prod.snd)", "  | l => some ((l.map Prod.snd).getLastD [])",
  'C94: the files are those of all options input', ['C94_hashes'],
  CMD + '#guard valuesOf [("input", ["a".toList]), ("input", ["b".toList])] "input" = some ["b".toList]\n')
M('cl-cards-optional', 'Command', 'given m ["runs", "cardinalities"]', 'given m ["runs"]',
  'C94: mode cardinalities needs the option cardinalities', ['C94_accepted'],
  CMD + '#guard ' + CL('"run", "--type", "hll", "--mode", "cardinalities", "--precision", "4", "--output", "d", "--runs", "1"') + '.isSome\n')
M('cl-input-always', 'Command', 'given m ["type", "mode", "precision", "output"] &&', 'given m ["type", "mode", "precision", "output", "input"] &&',
  'C94: mode cardinalities does not need the option input', ['C94_accepted'])
M('cl-jobs-twice', 'Command', 'if jobs.isNone ∧ isValue j then', 'if isValue j then',
  'C94: the option jobs cannot be given twice', ['C94_accepted'],
  CMD + '#guard ' + CL('"--jobs", "1", "--jobs", "2"') + '.isSome\n')
M('cl-jobs-default', 'Command', 'jobs.getD "1".toList', 'jobs.getD "0".toList',
  'C94: without the option jobs there is one thread', ['C94_gen', 'C94_hashes'])
M('cl-any-mode', 'Command', '{ name := "mode", possible := some ["hashes", "cardinalities"] }', '{ name := "mode" }',
  'C94: other modes are rejected', ['C94_accepted'],
  CMD + '#guard ' + CL('"run", "--type", "hll", "--mode", "x", "--precision", "4", "--output", "d"') + '.isSome\n')

M('par-gap-spaces', 'Parallel', "(pos - x.length) (Char.ofNat 0)", "(pos - x.length) ' '",
  'C89: a gap in a file is filled with bytes 0', ['C89_gap', 'C89_zeros'],
  'import Verif\nopen HLL Evl\n#guard writeAt [] 2 [\'x\'] = "  x".toList\n')

M('exp-skips-bad', 'Experiment', "    else .error .ValueError", "    else .ok (F64.ofNat 1)",
  'C89: a file with a byte 0 makes calculate_statistics raise an exception', ['C89_gap_noticed'],
  'import Verif\nopen HLL Exp\n#guard (lineValues "\\x003 3\\n".toList).isOk\n')
M('exp-first-file', 'Experiment', "let lines := (files.map fun fp => (readline fp).1).filter fun line => line ≠ []",
  "let lines := ((files.map fun fp => (readline fp).1).filter fun line => line ≠ []).take 1",
  'C81, C89: calculate_statistics reads all files', ['C89_gap_noticed', 'C81_statistics'])

M('fail-open-unnoticed', 'Failing', "t.input = some a → FCall t true F (.ordinary .waiting)", "t.input = some a → FCall t false F (.ordinary .waiting)",
  'C91: a file that cannot be opened is a failing call', ['C91_no_failure', 'C91_any_call'])
M('fail-open-never', 'Failing', "t.input = some a → FCall t true F (.ordinary .waiting)", "t.input ≠ some a → FCall t true F (.ordinary .waiting)",
  'C91: a task opens its own input file', ['C91_any_call'])
M('fail-drop-empty', 'Failing', "| dropFails {F pos rest} : rest ≠ [] →", "| dropFails {F pos rest} : rest = [] →",
  'C91: writing the rest of the buffer while unwinding can fail', ['C91_any_call'])

ALSO = {
    'evl-parse-wraps': ['C92_load'],
    'cmd-same-values': ['C93_plus_mean', 'C93_plus_mean_large'],
    'no-bias': ['C74_plus_error_everywhere', 'C87_plus_error_everywhere', 'C85_plus_interval'],
    'bias-twice': ['C74_plus_error_everywhere', 'C87_plus_error_everywhere',
        'C82_plus_corrected'],
    'linear-swapped': ['C79_plus_few_values', 'C79_pf_few_values', 'C79_small_cardinalities', 'C74_plus_error_everywhere',
                       'C87_plus_error_everywhere', 'C75_plus_set_operations', 'C75_pf_set_operations', 'C85_plus_rms_few',
                       'C72_plus_drop', 'C72_pf_drop', 'C84_plus_insert', 'C84_plus_merge', 'C88_pf_standard_error',
        'C75_plus_superadditive', 'C72_plus_sharp'],
    'plus-hash-32': ['C76_plus_builders', 'C77_plus_standard_error', 'C77_plus_front_page', 'C69_plus_standard_error',
                     'C74_plus_error_everywhere', 'C87_plus_rms', 'C87_plus_mean', 'C85_plus_rms_many',
        'C85_plus_similarity', 'C85_plus_rms', 'C87_plus_rarely'],
    'pf-hash-half': ['C75_pf_set_operations', 'C76_pf_builders', 'C85_pf_interval', 'C70_pf_at_all_times',
                     'C88_pf_standard_error', 'C88_pf_rms',
        'C82_pf_benchmarks', 'C88_pf_number'],
    'pf-merge-self': ['C75_pf_set_operations', 'C76_pf_counted_twice', 'C88_pf_rms',
        'C09_pf_merge_other_type'],
    'plus-merge-dense-sparse-tmp': ['C75_plus_set_operations', 'C76_plus_counted_twice'],
    'plus-merge-forgets-tmpset': ['C75_plus_set_operations', 'C76_plus_counted_twice', 'C85_plus_order',
        'C08_plus_merge_other_type'],
    'capacity': ['C77_storage',
        'C82_insert_benchmarks'],
    'raw-linear': ['C69_plus_standard_error', 'C77_plus_standard_error', 'C85_plus_rms_many', 'C87_plus_error_everywhere',
                   'C82_plus_raw', 'C82_pf_raw', 'C88_pf_standard_error'],
    'alpha-default': ['C69_plus_standard_error', 'C77_plus_standard_error', 'C85_plus_rms_many', 'C87_plus_rms', 'C87_plus_mean',
                      'C88_pf_standard_error'],
    'pf-linear-5m': ['C82_pf_raw'],
    'threshold-reversed': ['C74_plus_error_everywhere', 'C87_plus_error_everywhere', 'C85_plus_interval'],
    'repair-large-range': ['C77_pf_refuted'],
    'pf-insert-rank-off': ['C66_pf_saturated'],
    'linear-log-squared': ['C72_plus_dense_drop'],
    'mergesparse-never': ['C80_dense'],
    'log-lg7': ['C59_relative'],
}
for m in MUTANTS:
    m['breaks'] += [t for t in ALSO.get(m['name'], []) if t not in m['breaks']]
