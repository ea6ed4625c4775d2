# Formal model of tabac/hyperloglog.rs in Lean 4

Contents: 1 trusted base · 2 what is modelled · 3 what is not · 4 specification and main theorem ·
5 properties, modelling and proof ideas · 6 properties the code violates · 7 how the theorems were
tested · 8 layout.

## 1. Trusted base

* **Lean 4.33.0's kernel** and the axioms `propext`, `Classical.choice`, `Quot.sound`. No axiom is
  added; there is no `sorry`, `native_decide` or `bv_decide`. `lean/Verif/Audit.lean` checks every
  theorem named in `MANIFEST.json` at build time; `AXIOMS.md` lists the axioms theorem by theorem.
* **The hand translation** of `/repo/src/*.rs` to `lean/Verif/Model/*.lean`. Every definition cites
  file and lines. The tables of `src/constants.rs` are translated by `tools/gentables.py`.
  `lean/Verif/Tests.lean` runs the repository's own unit tests on the model, `lean/Verif/TestsFloat.lean`
  compares the model of `f64` with the processor bit by bit (tests, not proofs).
* **The statements**: `Spec*.lean`, `Props/Defs.lean` and the theorem statements in `Props/`.
* **Assumptions on code outside the repository**, all visible as hypotheses or parameters:
  - `BuildHasher`/`Hash`: a builder is a function from values to 64-bit hashes, the same at each call.
    Theorems hold for every such function.
  - `HashSet<u32>` is a set with an arbitrary iteration order, which may differ at every call.
  - `f64` arithmetic is IEEE-754 binary64, round to nearest even, as Rust guarantees.
  - `f64::ln` (with `std`) is a parameter `ln`. Theorems on equality of counts hold for every `ln`.
    Numeric theorems assume `LnSpec ln`: relative error at most 2^-40 on positive doubles,
    `ln 0 = -inf`, NaN on negative numbers. Real implementations are accurate to about 2^-52.
    For the crate's own logarithm (`src/log.rs`) `LnSpec` is a theorem (`C37_lnSpec`).
  - serde: the derive macros call the serializer with the fields in declaration order, and a format
    hands the same tree of values to `Deserialize`. For JSON text this is a theorem (C86) about a
    model of serde_json (`Model/Json.lean`), which itself is trusted.
  - A builder that is serialised comes back as the same function (`Codec.RoundTrips`); only
    programs that reload sketches need this.
  - In the evaluation program: clap, rayon, `BufReader`/`BufWriter`, `std::fs` and `rand` are modelled from
    their documentation (`Model/Command.lean`, `Parallel.lean`, `Failing.lean`), and so is `glob` in the script.
    Of clap only options written `--name value ...` are covered; an
    option with `multiple(true)` can have several values and be repeated.

## 2. What is modelled

| source | model |
|---|---|
| `src/lib.rs` 46-80 (trait, errors) | `Model/Common.lean`, `Model/History.lean`, `Model/Errors.lean` (texts) |
| `src/common.rs` 6-109 (packed registers) | `Model/Registers.lean` |
| `src/common.rs` 111-227 (estimators, `const-loop` table) | `Model/Common.lean` |
| `src/common.rs` 229-247 (`extract`) | `Model/Registers.lean` |
| `src/encoding.rs` 1-180 | `Model/Encoding.lean` |
| `src/hyperloglog.rs` 45-197 | `Model/PF.lean` |
| `src/hyperloglogplus.rs` 57-527 | `Model/Plus.lean` |
| `src/constants.rs` | `Model/Constants.lean` (generated) |
| `src/log.rs` | `Model/Log.lean` |
| serde derives | `Model/Serde.lean`; as JSON text: `Model/Json.lean`; processes that exchange sketches: `Model/Travel.lean` |
| `evaluation/src/main.rs` 15-332 | `Model/Evaluation.lean`, `Model/Parallel.lean` (threads and files), `Model/Command.lean` (`main` and its options), `Model/Failing.lean` (calls that fail) |
| `evaluation/exp.py` 21-63, 131-180 | `Model/Experiment.lean`, `Model/Command.lean` (the commands it starts, `glob`) |
| `f64`, integer arithmetic, slices, panics | `Model/F64.lean`, `Model/Prim.lean` |

Conventions:

* **Panics.** A function that can panic returns `R α = Except Panic α`. `Cfg` has the width of
  `usize`, whether overflow checks are on (debug builds: overflow panics; release builds: it wraps and
  shift amounts are masked), the features `const-loop` and `std`, and two details of the standard
  library that changed between versions: the algorithm of `binary_search_by` and the start value of
  `f64: Sum`. Theorems quantify over `Cfg`.
* **Integers.** `u32`, `u64` and bytes are `BitVec`; `u8` and `usize` are `Nat` with every operation
  range checked (`ck`). The `i32` exponent in `log.rs` is an `Int`, range checked likewise.
* **Floats.** A double is NaN, ±inf, -0, or a rational; `+ - * /` are the exact result rounded. The
  bits of a double are only needed in `log.rs` (`toBits`, `fromBits`; NaN payloads are a parameter).
* **`&mut self`** becomes a function that returns the new value.
* **Loops** over registers and codes are recursive functions over lists; iterators are the lists of
  what they yield. Iteration over `&DifIntVec` follows the iterator's state machine.
* **`slice::binary_search_by`** has both algorithms used by std so far: with early exit (1.52-1.81) and
  without (before and after), `Cfg.search`. `C49_bias_partial` allows any search that keeps the documented
  promise, except for precisions 5 and 6, whose tables are unsorted. For precision 6 the count does
  depend on the algorithm (`C49_refuted`); for precision 5 it does not (`C49_search_partial`: the one
  raw estimate where the algorithms differ would need 34 one bits in a sum of 32 powers of two).
* **`f64: Sum`** starts from `0.0` or `-0.0` (`Cfg.sumFromNegZero`; no difference by `C48_plus_sum_start`).
* **`std` and `no_std`.** `HyperLogLogPlus` exists with `std` only. The model of `HyperLogLogPF` is
  parametric in `ln`, so it covers both; `C37_no_std_count` is the statement for `no_std`.

## 3. What is not modelled

Allocation failure and `Vec`/`HashSet` capacity; running time (C61 bounds the number
of merges and the codes they process); `Debug` text of sketches; byte formats
other than JSON text (C86; elsewhere payloads are trees of values); `#[cfg(bench)]` code; of `benchmarks/`
all but the calls on the sketches (C82); of
`evaluation/` other ways to write options than `--name value`, links between files, and in `exp.py` also
the plots and `np.mean`, `np.median`, `np.std` (arbitrary functions in C81);
type-level matters such as `PhantomData`, `Borrow` and trait bounds; sharing between threads (the API
takes `&mut self`). Targets with `usize` below 32 bits are excluded by hypothesis, except in C68, which says
what `HyperLogLogPF` does there.

## 4. Specification and main theorem

`Spec.lean` uses natural numbers and finite sets only: rank and bucket of a hash, register function
of a set of hashes, sparse code, encoded size. `SpecCount.lean` gives the estimators of the
HyperLogLog papers as functions of a list of register values in f64 arithmetic. `SpecHistory.lean`
is the *set machine*: a sketch is a builder, a precision and a set of hashes; `merge` is union.

A *program* (history) is a list of API calls on a growing store of sketches: `new`, `clone`, `insert`
(three kinds), `merge`, `count`, `reload` (serialise and deserialise). `plus_refines` and `pf_refines`
say that running any program on the model gives, call by call, the outputs of the set machine and never
panics, for every builder, iteration order, logarithm and supported target. Most properties are stated
directly on programs and follow from it.

Representation invariants (in `Proofs/`): `Registers.Lanes`/`Rep` (packed words represent a function;
`Rep` also says the unused bits are zero), `Plus.Rep`/`PF.Rep` (state represents (p, S)).

**Random hashes** (C42, C44-C47, C50-C58, C62, C66, C67, C69, C70, C74-C80, C82, C84, C85, C87, C88): every assignment of 64-bit hashes to n values is equally likely, so
probabilities are fractions and expectations are averages over the finite set `Fin n → Fin (2^64)`.
No measure theory is involved.

## 5. Properties

| id | stated on | proof idea |
|----|-----------|------------|
| C01, C02 | `new` for every number | case split |
| C03, C04, C38 | programs | `plus_refines`, `pf_refines`: every step returns `ok` |
| C05-C10, C12, C13, C20, C21, C41 | programs | refinement; encoded size is monotone in the set |
| C11 | programs | refinement |
| C14-C16 | reached states; all update sequences | bit lemmas on lanes, induction on updates |
| C17, C18 | `VarIntVec`, `DifIntVec` | induction |
| C19 | reached states | invariant |
| C22, C40 | programs | congruence through the refinement |
| C23, C24, C26, C27, C31, C32, C34, C39 | programs | rounding is monotone, error bounds, real analysis of log |
| C25 | `encode_hash` | arithmetic characterisation of codes |
| C28 | targets with 32-bit `usize` | set machine whose `count` may panic (`SpecTargets.lean`) |
| C29, C30 | generated tables | kernel evaluation over the whole tables, search invariant |
| C33 | `const-loop` | table entries equal computed values |
| C35, C36 | payloads | round trip; well-formedness checks (`SpecDe.lean`) as invariant; the exact conditions for safety, with and without overflow checks (`SpecUse.lean`, `SpecUseSparse.lean`, `SpecUseCount.lean`) |
| C37 | `Model/Log.lean` | exact argument reduction, rounding error analysis, interval bounds on the series |
| C42, C44, C45 | averages over hash assignments | counting, second moments, Chebyshev, Markov |
| C43 | pairs of programs | uniqueness of the representation |
| C46, C47 | fraction of hash assignments | C44/C45 with error analysis of linear counting |
| C48, C49 | programs; any search | C33; uniqueness of the result of a search in a sorted table |
| C50 | averages over hash assignments | counting; negative correlation of two registers |
| C51, C52, C53 | fraction of hash assignments | C50, Chebyshev; the sum of u e^-u over all u = λ 2^-k lies in [1.4424, 1.443], by integer arithmetic on a grid (`Proofs/Oscillation.lean`) |
| C54 | averages over hash assignments; table entries | C50; Poisson approximation of the moments; both tables against integer bounds on the resulting series (`Proofs/ExpSums.lean`, `Proofs/BiasTables.lean`) |
| C55, C56 | fraction of hash assignments | C44, C50, C51, C54; the bias-corrected estimate inverts the mean of the raw estimate (`Proofs/Whole*.lean`) |
| C57, C58 | fraction of hash assignments, any program | C55, C56, refinement; the hashes of the received values are again uniform (`fraction_restrict`) |
| C59 | `Model/Log.lean` | rounding errors step by step; the last addition is exact when the bound would be too large (`Proofs/LogLast.lean`) |
| C60 | programs, all hashes | the tables lie under and above chords; few empty registers force a large raw estimate (`Proofs/Worst.lean`) |
| C61 | reached states, runs of insertions | each merge uses up a full temporary set |
| C62 | fraction of hash assignments, any program | the registers are negatively dependent (`Proofs/NegDep.lean`), so Chernoff's method applies (`Proofs/Chernoff*.lean`) |
| C63 | `Model/Common.lean` | arithmetic of shifts |
| C64 | reached states | the differences of sorted 32-bit codes add up to less than 2^32, so few of them take 4 or 5 bytes |
| C65 | systems of processes | simulation per process; the relation does not mention the build, so it survives saving and loading |
| C66 | reached states | the hashes above rank M in a bucket form one bucket of precision p + M |
| C67 | fraction of hash assignments, any program | count pairs of hashes with equal codes, and assignments with distinct buckets |
| C68 | programs, any `usizeBits` | `pf_description`: the simulation of C28 only needs `p < usizeBits` |
| C69 | programs, random hashes | moments of `C/Z`, `Z` the harmonic sum over its mean: variance bound of C50, Chernoff bounds of C62, worst case of C60 |
| C70 | programs, random hashes | C62 at all small sets; larger sets lie between two sets of the same size up to 1 %, and the raw estimate is monotone (`Proofs/Chains.lean`) |
| C71 | programs; all format options | refinement; case split |
| C72 | programs; all hash functions | comparison of the estimators; exact families of hash sets (`Proofs/Crowd`) |
| C73 | programs; all logarithms with the error bound | rational bounds on exp around each threshold; monotonicity of linear counting (`Proofs/LnFree`) |
| C74 | programs, random hashes | second moments of the harmonic sum and of the empty registers (C50, C51); the estimators compared on the outcomes near the thresholds (`Proofs/AllError`) |
| C75 | programs, random hashes | union bound over three applications of C62; superadditivity of linear counting |
| C76 | programs with several random builders | one random function on pairs of builder and value, then C62 |
| C77 | programs, random hashes | above: exp(6x) dominates the square of 1/(1-x) - 1; below: Cauchy-Schwarz against the harmonic sum, whose variance and third moment are bounded by counting pairs of registers and by C62's moment generating function (`Proofs/Sharp*.lean`) |
| C78 | evaluation program | its loops are programs in the sense of C01, so main theorem; then C70, C74, C77 on the chain of prefixes; 32-bit hashes are lower halves of 64-bit ones |
| C79 | ++ against the original | variance of the number of empty registers from both sides; linear counting expands distances; 2^25 prefixes for the sparse form |
| C80 | end of the sparse form | exponential moments of the number of neighbouring codes that are close enough for a one-byte difference, and of flagged codes; one value at a time (`Proofs/Spacing.lean`) |
| C81 | script of the experiments | error bound for repeated rounded multiplication; files are read back line by line; then C78 |
| C82 | estimator used | Chernoff bounds for the empty registers and the harmonic sum (C62), against the integer thresholds of C73; end of the sparse form by C80 (`Proofs/Regimes.lean`) |
| C83 | chosen values | codes and registers of explicit sets of hashes; injective assignments by extending an equivalence (`Props/Chosen.lean`) |
| C84 | membership, inclusion | linear counting grows by more than 1/2 per code; probability that two codes agree (`Props/Member.lean`) |
| C85 | conclusions from counts | C62 solved for the number of values; C74, C77, C79 with Minkowski's inequality (`Props/Similar.lean`) |
| C86 | JSON text | the reader undoes the writer, by induction on values; after a complete value only white space is accepted (`Proofs/Json.lean`, `Props/Json.lean`) |
| C87 | programs, random hashes | each estimator compared with the deviations of registers and prefixes whatever their size (`Proofs/AnyError`); fourth moment of the raw estimate where the harmonic sum is below half of its mean (`Proofs/Fourth`, `Proofs/AnySquare`) |
| C88 | programs, random hashes | the same comparison for the 32-bit code, with the three branches of `count` (`Proofs/PFError`); outcomes far from the mean handled with the tail bounds of C62 |
| C89 | programs | system calls of all runs interleaved in any order by any number of threads; an invariant says what each output file holds at every moment (`Proofs/Parallel`); a concrete interleaving for files of the same name |
| C90 | programs | both commands and the statistics in sequence, on the file system: option parsing evaluated on the command lines of the script, then C89 for each loop, `glob` in any order, C81 for the table |
| C91 | programs | the calls of C89, each of which may fail, with the unwinding of a panic; a run without a lost task is one of C89 (`Proofs/Failing`); prefixes of decimal numbers are quotients by powers of ten |
| C92 | programs | `Numbers` (`SpecNumbers.lean`) describes the accepted texts by rules, without a reader; `load_iff` (`Proofs/Numbers`); every loop with separate files has exactly one outcome or none (`loop_exact`) |
| C93 | probability | the runs use disjoint blocks of the random numbers, so the variances of their errors add up (`variance_sum`, `runs_tail`); mean squares and tails from C69, C74, C85 and C87; the files from C90 |
| C94 | induction on the words | what may follow the options read so far (`Tail`, `Within`), turned into a condition on all of them at once (`fine_iff`); the plans from the lemmas of C90 |

C95 and later: see the titles in `properties.jsonl` and the doc comments of the theorems.

Beside every theorem there are `example`s showing that its hypotheses hold for a concrete non-trivial
program or input.

## 6. Properties the code violates

C27, C28, C30, C32, C36 and C49 are false for the unchanged code. For each, the negation is proved with a
concrete reachable witness (`…_refuted…`), and the part that holds is proved as `…_partial`:

* C27: `HyperLogLogPF::count` is NaN or infinite once the raw estimate reaches 2^32.
* C28: with 32-bit `usize`, `count * count` overflows for precision 16 and above.
* C30: the rows of `RAW_ESTIMATE_DATA` for precisions 5 and 6 are not sorted.
* C32: `count` can decrease when the estimator changes.
* C36: `Deserialize` validates nothing, so some payloads lead to panics. The theorems
  `C36_pf_exact`, `C36_plus_dense_exact` and `C36_plus_sparse_exact` say which, and the same names with
  `_wrapping` for builds without overflow checks. `C36_plus_dense_all` covers dense payloads whose `m * m`
  does not fit: they are safe only if `count` uses linear counting for all values that `zeros` can still
  take. Ranks that do not fit in a register: rank 64 in the list lets some program panic
  (`C36_plus_rank_64`); ranks above 64 are harmless (`C36_plus_sparse_safe`), except for the last register
  if `m` is larger than the number of registers (`C36_plus_sparse_ranks`). Left open in the build with
  checks: sparse payloads with 2^(W-1) or more bytes; with rank 64 in the temporary set; with ranks
  above 64 and `m` smaller than the number of registers.
* C49: with precision 6 and raw estimates in [237.75, 238.20) the count depends on the std version.

Found as well: the large range correction of `HyperLogLogPF` overestimates (C53),
although the raw estimate it corrects is off by at most 6 % up to n = 2^31; sparse linear counting uses m' = 2^24 although codes keep 25 bits, so it overestimates by
about n^2/2^25 (C24 gives the bounds); `impl std::error::Error` is not behind the feature `std`, so
`no_std` does not build as is; `estimate_raw` is unused; `threshold(5)` is 10 where the appendix of the
HyperLogLog++ paper has 20; while sparse, the count of a union of disjoint sketches exceeds the sum of
their counts (C75); `merge` accepts sketches with different hashers and then counts shared values twice
(C76); the accuracy of 2 % promised in `src/lib.rs` for cardinalities beyond 10^9 is nearly right for
`HyperLogLogPlus` (2.04 % to 2.49 %) and wrong for `HyperLogLogPF`, which is 7 % and more off (C77).

## 7. Testing the theorems against wrong programs

`tools/mutants.py` contains edits of the model as a realistic bug would make them, each with the English
claim it breaks and, where possible, a Lean witness showing the misbehaviour. `tools/mutate.py` applies
one in a scratch copy, rebuilds, replaces the proofs that no longer compile by `sorry` (scratch copy
only) and lists the manifest theorems that depend on a broken proof. A theorem that survives although
its claim is false is tightened. Results: `seeded/LOG.jsonl`.

`tools/automut.py` changes every literal, comparison and operator of a model file in turn and looks for
edits that no theorem notices. In `Plus.lean`, `Encoding.lean` and `Command.lean` there are none left; the
last ones it found there (`cl-multiple-default`, `cl-hyphen`, `cl-stray-word` in the log) led to C94.
One in `Parallel.lean` (`par-gap-spaces`) led to `C89_gap`. Those left in `Experiment.lean` change `int` and
`lessInt` on NaN and -0, which the script never meets.

## 8. Layout

* `lean/Verif/Model/` – the model; `lean/Verif/Spec*.lean` – specifications;
  `lean/Verif/Proofs/` – lemmas; `lean/Verif/Props/` – the theorems named in the manifest, with
  examples; `lean/Verif/Tests.lean` – unit tests; `lean/Verif/Audit.lean` – axiom check.
* `properties.jsonl`, `MANIFEST.json`, `Verif.lean`, `Audit.lean` are written by `tools/all.sh` from
  `tools/mkprops.py` and `tools/claims.py`.
