import json
P=[]
def p(id,title,statement,quantifier,why,anchors):
    P.append(dict(id=id,title=title,statement=statement,quantifier=quantifier,why_tests_cant=why,anchors=anchors))
HP="src/hyperloglogplus.rs"; PF="src/hyperloglog.rs"; CM="src/common.rs"; EN="src/encoding.rs"; CO="src/constants.rs"; LG="src/log.rs"; LB="src/lib.rs"
p("C01","HyperLogLogPlus::new accepts exactly precisions 4..=18",
  "HyperLogLogPlus::new(p, b) returns Ok if and only if 4 <= p <= 18; every other u8 gives Err(InvalidPrecision). An accepted sketch starts empty: its first count() is 0.0. The constructor never panics, on 32- and 64-bit targets.",
  "every u8 precision, every target word size >= 32, both overflow-check modes","a boundary slip at one precision is invisible unless every value is tried in every build configuration",[HP+":new",CM+":register_count",CM+":size_in_bytes"])
p("C02","HyperLogLogPF::new accepts exactly precisions 4..=16",
  "HyperLogLogPF::new(p, b) returns Ok if and only if 4 <= p <= 16; every other u8 gives Err(InvalidPrecision); an accepted sketch is empty and the constructor never panics.",
  "every u8 precision, every target word size >= 32, both overflow-check modes","same as C01",[PF+":new",CM+":with_count"])
p("C03","No HyperLogLogPlus call panics (64-bit targets)",
  "In any program that creates HyperLogLogPlus sketches through new/clone and drives them with insert/insert_any/add, merge (with any other sketch, equal precision or not) and count, in any order, no call panics: no arithmetic or shift overflow, no out-of-range index, no unwrap of None, no unreachable!().",
  "all histories of public calls over any number of sketches, all 64-bit hash values, all HashSet iteration orders, all precisions","the failing state could need an arbitrary history (e.g. a specific mix of pending and encoded hash codes at a specific precision)",[HP+":insert_impl",HP+":merge",HP+":merge_sparse",HP+":sparse_to_normal",HP+":count",CM+":set_greater",EN+":DifIntVec::push",EN+":VarIntVec::decode"])
p("C04","No HyperLogLogPF call panics (64-bit targets)",
  "The same for HyperLogLogPF: in any history of new/clone/insert/merge/count no call panics.",
  "all histories over any number of sketches, all hash values, precisions 4..=16","as C03",[PF+":insert_impl",PF+":merge",PF+":count",CM+":set_greater"])
p("C05","HyperLogLogPlus::count depends only on the set of inserted hashes",
  "For a HyperLogLogPlus sketch, count() returns a value that depends only on the precision and on the SET of 64-bit hashes that have been inserted into it, directly or through merges: not on insertion order, repetition, how often count was called before, how the data was split over merged sketches, or when the sketch switched representation.",
  "all histories, all hash sets, all precisions 4..=18","order/duplication/representation interleavings are infinite; the switch to dense registers depends on the encoded byte size of a varint/difference code",[HP+":insert_impl",HP+":merge",HP+":merge_sparse",HP+":sparse_to_normal",HP+":count"])
p("C06","HyperLogLogPF::count depends only on the set of inserted hashes",
  "For a HyperLogLogPF sketch, count() depends only on the precision and on the set of (low 32 bits of the) hashes inserted directly or through merges.",
  "all histories, all hash sets, all precisions 4..=16","as C05",[PF+":insert_impl",PF+":merge",PF+":count"])
p("C07","Re-inserting a value never changes any later count",
  "If a value with the same hash was inserted earlier (into this sketch or into one merged into it), inserting it again leaves every later count() unchanged, for both sketch types.",
  "all histories before and after, all values","depends on every reachable representation of the earlier insertion",[HP+":insert_impl",PF+":insert_impl"])
p("C08","HyperLogLogPlus::merge is union",
  "After a.merge(&b) returns Ok, a behaves - for every later count() and after every later operation - exactly like a single sketch that received both insertion streams, whatever the representations (sparse/dense) of a and b, and even if a and b were built with different value types or hash builders; b is unchanged.",
  "all pairs of reachable sketches of equal precision in all four sparse/dense combinations, all continuations","four representation combinations x arbitrary contents x pending temporary sets",[HP+":merge",HP+":merge_sparse",HP+":sparse_to_normal",HP+":decode_hash"])
p("C09","HyperLogLogPF::merge is union","The same as C08 for HyperLogLogPF.","all pairs of reachable sketches of equal precision, all continuations","as C08",[PF+":merge",CM+":set_greater",CM+":iter"])
p("C10","Merge is commutative, associative and idempotent as seen by count",
  "For sketches of equal precision, count after merging is the same for a.merge(b) and b.merge(a), for either association of three sketches, and merging the same sketch again changes nothing; merging an empty sketch changes nothing. Both types.",
  "all reachable sketches of equal precision","algebraic laws over all states",[HP+":merge",PF+":merge"])
p("C11","Mismatched precision is rejected without side effects",
  "merge returns Err(IncompatiblePrecision) if and only if the two precisions differ, and then the receiver is unchanged; otherwise it returns Ok. Both types.",
  "all pairs of reachable sketches","early-return before mutation must hold in every state",[HP+":merge",PF+":merge"])
p("C12","count() is observationally pure",
  "Although count() takes &mut self and may reorganise or re-represent the sketch, adding or removing count() calls anywhere in a history changes no other result; two consecutive count() calls return the same number.",
  "all histories and all positions of extra count calls","count triggers re-encoding and the sparse-to-dense switch, so its effect depends on the whole history",[HP+":count",HP+":merge_sparse",PF+":count"])
p("C13","Switching from sparse to dense loses nothing",
  "Whenever a HyperLogLogPlus sketch switches to the dense representation, every register has exactly the value it would have had if all hashes had been inserted in dense mode from the start.",
  "all hash sets, all precisions, all switch points (via insert, count or merge)","needs the 32-bit sparse code to determine register index and rank for each of 2^64 hashes at each precision",[HP+":encode_hash",HP+":decode_hash",HP+":index",HP+":sparse_to_normal",HP+":insert_impl"])
p("C14","Registers hold the maximum rank per bucket",
  "In dense mode register j equals the maximum, over inserted hashes whose top p bits equal j, of the 1-based position of the first 1 bit after those p bits (or width-p+1 when there is none), and 0 when there is no such hash. Same for HyperLogLogPF on the low 32 bits.",
  "all hash sets, all registers, all precisions","2^64 hashes, all histories",[HP+":insert_impl",PF+":insert_impl",CM+":set_greater"])
p("C15","Packed registers behave like an array of independent maxima",
  "Updating one register never changes another one although 5 (6-bit) or 6 (5-bit) registers share a 32-bit word; every rank that can occur fits in its field (<= 61 for Plus, <= 29 for PF); iteration yields exactly `count` registers in index order.",
  "all register contents, all indices, all ranks","bit-field spill-over only shows for particular neighbours and values",[CM+":set_greater",CM+":get",CM+":iter",CM+":with_count"])
p("C16","The zero-register counter is exact",
  "The incrementally maintained number of zero registers always equals the number of registers whose value is 0 (it feeds linear counting).",
  "all histories","decrement happens on a data-dependent path",[CM+":set_greater",CM+":zeros",CM+":with_count"])
p("C17","Variable-length integer encoding round-trips",
  "Pushing any sequence of u32 values into the variable-length byte vector and iterating over it returns exactly that sequence; each value takes ceil(bits/7) bytes (1 for 0), at most 5.",
  "all finite sequences of u32","2^32 values and unbounded sequence lengths",[EN+":VarIntVec::push",EN+":VarIntVec::decode",EN+":VarIntVecIntoIter::next"])
p("C18","Difference encoding round-trips on non-decreasing input",
  "Pushing any non-decreasing sequence of u32 values into the difference-encoded vector and iterating returns exactly that sequence and its count; pushing a smaller value than the last one panics when overflow checks are on.",
  "all non-decreasing sequences of u32","unbounded sequences",[EN+":DifIntVec::push",EN+":DifIntVec::count",EN+":DifIntVecIntoIter::next"])
p("C19","Sparse storage is bounded",
  "In every reachable sketch the encoded sparse buffer has at most 4*2^p/5 bytes, the pending temporary set has at most 4*2^p/500 entries, and in dense mode both are empty; the dense buffer has ceil(2^p/5) words.",
  "all histories","the bound must survive every interleaving of insert, merge and count",[HP+":insert_impl",HP+":merge",HP+":merge_sparse",HP+":sparse_to_normal"])
p("C20","When the sketch is sparse depends only on the data",
  "Right after count(), a HyperLogLogPlus sketch is in sparse representation if and only if the difference/varint encoding of the set of its hash codes fits in 4*2^p/5 bytes; the switch is one-way: once dense, a sketch stays dense under all operations.",
  "all histories","needs monotonicity of the encoded size under set inclusion",[HP+":merge_sparse",HP+":insert_impl",HP+":merge"])
p("C21","HashSet iteration order is unobservable",
  "The temporary set is a std HashSet with unspecified, per-process random iteration order; no result of any call depends on that order, even if it changes at every call.",
  "all iteration orders at every call, all histories","iteration order is randomised; tests see a few orders only",[HP+":merge",HP+":merge_sparse"])
p("C22","insert, insert_any and add agree and see only the hash",
  "insert, insert_any and add have identical effects, and that effect depends on the value only through the 64-bit hash produced by the sketch's builder (PF: through its low 32 bits).",
  "all values, all builders, all states","ranges over all hash functions",[HP+":insert_impl",PF+":insert_impl",HP+":insert",HP+":add",HP+":insert_any"])
p("C23","An empty sketch counts exactly 0.0",
  "count() on a sketch into which nothing was ever inserted (possibly after merging other empty sketches and counting repeatedly) is exactly 0.0, for both types at every precision, and for an inserted-into sketch is strictly positive (Plus).",
  "all precisions, all histories without insertions; all histories with at least one insertion","histories with merges of empties are unbounded",[HP+":count",PF+":count",CM+":linear_count"])
p("C24","Sparse-mode estimates are accurate",
  "While sparse, with n distinct hash codes stored, the estimate lies between n and n*2^24/(2^24-n) up to floating-point rounding; in particular floor(count()) = n whenever n is at most 5000.",
  "all reachable sparse sketches, all n","every n and every precision",[HP+":count",CM+":linear_count"])
p("C25","Sparse hash codes identify exactly prefix-and-rank",
  "Two hashes get the same 32-bit sparse code iff they agree on the top 25 bits and, when bits p..25 are all zero, also on the rank of the remaining 39 bits. So hashes with different 25-bit prefixes are always counted separately in sparse mode.",
  "all pairs of 64-bit hashes, all precisions","2^128 pairs",[HP+":encode_hash"])
p("C26","HyperLogLogPlus::count is always finite and non-negative (64-bit)",
  "In every reachable state count() returns a finite, non-negative f64 (never NaN or infinity), including after the empirical bias correction is subtracted.",
  "all histories, all precisions","the bias subtraction could go negative only for particular register configurations",[HP+":count",HP+":estimate_bias",CM+":estimate_raw_plus",CM+":alpha",CO])
p("C27","HyperLogLogPF::count is always finite and non-negative",
  "In every reachable state of a HyperLogLogPF count() returns a finite, non-negative f64. (Expected of the API; the unchanged code violates it: the large-range correction takes ln(1 - raw/2^32) although raw can exceed 2^32.)",
  "all histories, all precisions 4..=16","needs saturated registers that random tests never reach",[PF+":count"])
p("C28","count() works on 32-bit targets",
  "count() returns the same value on 32-bit targets as on 64-bit targets. (The unchanged code violates this for p >= 16: count * count overflows usize.)",
  "all histories, all precisions, usize of 32 bits","CI runs on 64-bit hosts only",[CM+":estimate_raw_plus",CM+":estimate_raw",HP+":count",PF+":count"])
p("C29","Bias lookup stays in range and interpolates",
  "For every precision and every finite raw estimate, the bias lookup neither panics (index or underflow or NaN unwrap) nor divides by zero, and returns a value between the biases of two adjacent table points that bracket the raw estimate (or the first/last bias outside the table).",
  "all precisions 4..=18, all finite f64 raw estimates","continuum of raw values; the tables for precisions 5 and 6 are not sorted, so binary search's documented precondition fails there",[HP+":estimate_bias",CO+":RAW_ESTIMATE_DATA",CO+":BIAS_DATA"])
p("C30","The empirical tables are sorted as binary search requires",
  "Every table of raw estimates handed to binary search is sorted. (Violated by the unchanged tables for precisions 5 and 6; holds strictly for all other precisions.)",
  "all 15 tables, all entries","tables contain ~2800 hand-copied numbers; no test checks them",[CO+":RAW_ESTIMATE_DATA",HP+":estimate_bias"])
p("C31","The raw estimate never decreases when elements are added",
  "The uncorrected dense-mode estimate (alpha*m^2/sum 2^-reg), as computed in f64 with rounding, never decreases when more values are inserted or sketches are merged.",
  "all register states, all insertions, all precisions","rounding of a long floating-point sum could break monotonicity for particular states",[CM+":estimate_raw_plus"])
p("C32","count() never decreases as elements are added",
  "Inserting a value never makes count() smaller. (Violated by the unchanged code when the estimator switches between linear counting, bias-corrected and raw estimates; holds within sparse mode and within the linear-counting range.)",
  "all histories, all insertions","switch points depend on the register configuration",[PF+":count",HP+":count"])
p("C33","The const-loop feature does not change results",
  "With the const-loop feature (lookup table of inverse powers of two) every count() equals the one computed without it.",
  "all sketches, all precisions, both types","feature combinations x all states",[CM+":estimate_raw_plus",CM+":RAW"])
p("C34","The harmonic sum is computed accurately",
  "For HyperLogLogPF the floating-point sum of 2^-register is exact, hence independent of summation order; for HyperLogLogPlus its relative error is at most m*2^-53*(1+small).",
  "all register states, all precisions","rounding depends on all register values",[CM+":estimate_raw_plus"])
p("C35","Serialisation round-trips",
  "Deserialising a serialised sketch (at any point of its life, in either representation, with pending temporary codes) gives a sketch whose every later result equals the original's.",
  "all reachable sketches, all continuations, all orders in which the temporary set is serialised","all states and continuations",[HP+":HyperLogLogPlus (derive Serialize, Deserialize)",PF+":HyperLogLogPF (derive)",EN+":DifIntVec (derive)",CM+":Registers (derive)"])
p("C36","Deserialised sketches are safe to use",
  "Any input accepted by Deserialize yields a sketch on which operations do not panic. (Violated by the unchanged code: fields are not validated.)",
  "all accepted payloads","malformed payloads are unbounded",[HP+":HyperLogLogPlus (derive Deserialize)",EN+":VarIntVec::decode",CM+":set_greater"])
p("C37","The no_std logarithm handles special cases and reduces arguments correctly",
  "The bundled log(x): returns 0 exactly at 1, -inf at +-0, NaN for negative numbers, x itself for +inf/NaN; for every other positive x it rewrites x = 2^k*(1+f) exactly with sqrt(2)/2 <= 1+f < sqrt(2) (to table precision) before applying the polynomial, and its result approximates ln x.",
  "all f64 arguments","2^64 arguments",[LG+":log"])
p("C38","Precision guards in the estimator are unreachable",
  "The unreachable!() in the linear counting threshold table and the table index precision-4 are never hit/out of range for any sketch obtainable through the API.",
  "all reachable sketches","state invariant over all histories",[HP+":threshold",HP+":estimate_bias"])
p("C39","Dense count() uses the documented estimator",
  "In dense mode HyperLogLogPlus::count returns linear counting m*ln(m/V) exactly when some register is zero and that value is at most the precision's threshold; otherwise the raw estimate, minus the interpolated bias iff raw <= 5m. HyperLogLogPF::count returns linear counting iff raw <= 2.5m and V != 0, else raw with large range correction above 2^32/30.",
  "all dense sketches, as functions of the register multiset only","decision logic over all states",[HP+":count",PF+":count"])
p("C40","PF only sees 32 bits of the hash",
  "Two values whose 64-bit hashes agree on the low 32 bits are indistinguishable to HyperLogLogPF; moreover count() is a function of, per register, the maximal rank only.",
  "all pairs of hashes, all histories","all histories",[PF+":insert_impl"])
p("C41","Clones are independent",
  "After cloning a sketch, operations on either copy never change results of the other.",
  "all histories over clones","all interleavings of operations on both copies",[HP+":HyperLogLogPlus (derive Clone)",PF+":HyperLogLogPF (derive Clone)"])
p("C42","With a uniform hash, linear counting sees the expected number of empty registers",
  "If the n inserted distinct values get independent uniform hashes, the expected number of zero registers of a dense sketch (and of HyperLogLogPF) is exactly m*(1-1/m)^n.",
  "all n, all precisions, average over all assignments of hashes","an average over (2^64)^n hash assignments",[HP+":insert_impl",PF+":insert_impl",CM+":linear_count"])
p("C43","The stored state is canonical",
  "Two HyperLogLogPF sketches with equal builder, precision and set of inserted hashes are equal field by field (every bit of the packed words, the zero counter), however they were produced. The same holds for dense HyperLogLogPlus sketches, and for any two HyperLogLogPlus sketches once count() has been called on both. So serialised sketches can be compared or deduplicated byte by byte.",
  "all pairs of histories, targets and HashSet iteration orders","all pairs of executions; unused bits of the packed words are invisible to the API",[CM+":set_greater",HP+":merge_sparse",PF+":HyperLogLogPF (derive Serialize)"])
p("C44","The number of empty registers is concentrated around its mean",
  "With n independent uniform hashes the variance of the number of zero registers is exactly m q^n + m(m-1)(1-2/m)^n - (m q^n)^2 with q = 1-1/m, and the number is t or more away from m q^n with probability at most m q^n (1-q^n)/t^2. This holds for HyperLogLogPF and for dense HyperLogLogPlus sketches.",
  "all n, all precisions, all t, average over all assignments of hashes","a second moment over (2^64)^n hash assignments",[HP+":insert_impl",PF+":insert_impl",CM+":set_greater"])
p("C45","Sparse mode loses few values",
  "With n independent uniform hashes, a HyperLogLogPlus that is still sparse after count() holds on average at least n - n(n-1)/2^26 and never more than n entries; a or more values are lost with probability at most n(n-1)/(2^26 a).",
  "all n >= 1, all precisions, all a, average over all assignments of hashes","collisions of 25-bit prefixes over (2^64)^n hash assignments",[HP+":encode_hash",HP+":merge_sparse"])
p("C46","HyperLogLogPlus::count is accurate with high probability",
  "Insert n values with independent uniform hashes into a new HyperLogLogPlus and call count. As long as n plus the error stays below the threshold of the precision, the returned double is within an explicit error of n except with an explicitly bounded probability, covering sparse and dense sketches, the switch between them, collisions and all rounding errors. In particular for n <= m/2 and delta <= 1/3 the error exceeds max(delta m + 1, n^2/(2^24-n)) with probability at most 16/(9 m delta^2) + n(n-1)/(2^26 delta m).",
  "all n, precisions, deviations t and a, average over all assignments of hashes","a probability over (2^64)^n hash assignments",[HP+":count",HP+":insert_impl",CM+":linear_count"])
p("C47","HyperLogLogPF::count is accurate with high probability",
  "Insert n values with independent uniform hashes into a new HyperLogLogPF and call count. As long as 3m/10 + t <= m(1-1/m)^n, the returned double is within n/(m-1) + m t/(mu-t) (plus rounding) of n except with probability at most m q^n (1-q^n)/t^2. In particular for n <= m/2 and delta <= 1/3 the error exceeds delta m + 1 with probability at most 16/(9 m delta^2).",
  "all n, precisions and deviations t, average over all assignments of hashes","a probability over (2^64)^n hash assignments",[PF+":count",PF+":insert_impl",CM+":linear_count"])
p("C48","Start value of sums and size of the lookup table do not matter",
  "Whether the standard library's f64 Sum starts from 0.0 (older versions) or from -0.0 (newer versions) changes no result of HyperLogLogPlus or HyperLogLogPF. For HyperLogLogPF the const-loop table with 32 entries of no_std builds is never indexed out of bounds and gives the same results as the one with 64 entries.",
  "all programs, targets and features","behaviour over all programs on several compiler versions and feature sets at once",[CM+":estimate_raw_plus",CM+":RAW"])
p("C49","count does not depend on how the standard library searches",
  "HyperLogLogPlus::count returns the same double whichever algorithm slice::binary_search_by uses, as long as it keeps its documented promise for sorted slices.",
  "all searches meeting the documented contract, all precisions, all raw estimates","quantifies over all implementations of the search",[HP+":estimate_bias",CO+":RAW_ESTIMATE_DATA"])
p("C50","Law of the registers for random hashes",
  "With n independent uniform hashes each register of HyperLogLogPF (w = 32 bits used) and of dense HyperLogLogPlus sketches (w = 64) is at most k with probability (1-2^-(p+k))^n, two registers are jointly at most k and l with probability (1-2^-(p+k)-2^-(p+l))^n, no register exceeds w-p+1, the expectation of the harmonic sum is given exactly and its variance is bounded by that of m independent registers.",
  "all n, all precisions, all registers, average over all assignments of hashes","joint distributions over (2^64)^n hash assignments",[HP+":insert_impl",PF+":insert_impl",CM+":set_greater"])
p("C51","HyperLogLogPlus::count is accurate for large cardinalities",
  "Insert n values with independent uniform hashes into a new HyperLogLogPlus and call count. With delta <= 1/2, eps = delta + 1.1/m + 0.001, (1-eps)n > 5m and n <= 2^59 the relative error exceeds eps with probability at most (1.09+4/m)(1+delta)^2/(m delta^2), all rounding errors included. So the constants alpha are right and there is no correction for large cardinalities to get wrong.",
  "all n, precisions and deviations delta, average over all assignments of hashes","a probability over (2^64)^n hash assignments",[HP+":count",CM+":estimate_raw_plus",CM+":ALPHA"])
p("C52","HyperLogLogPF::count is accurate for medium cardinalities",
  "Insert n >= 5m values with independent uniform hashes into a new HyperLogLogPF and call count. With delta <= 0.4, eps = delta + 1.1/m + 0.001 and (1+eps)n <= 2^32/30 the relative error exceeds eps with probability at most (1.09+4/m)(1+delta)^2/(m delta^2).",
  "all n, precisions and deviations delta, average over all assignments of hashes","a probability over (2^64)^n hash assignments",[PF+":count",CM+":estimate_raw_plus",CM+":ALPHA"])
p("C53","HyperLogLogPF overestimates large cardinalities",
  "Insert n values with independent uniform hashes into a new HyperLogLogPF, 2^32/20 <= n <= 2^31, and call count. With eps = delta + 1.1/m + 0.001 <= 1/10 the result is at least (1 + 0.45 n/2^32 - 2 eps) n, except with probability at most (1.12+4/m)(1+delta)^2/(m delta^2). The correction for large cardinalities thus makes the estimate worse.",
  "all n, precisions and deviations delta, average over all assignments of hashes","needs a billion distinct values, and a probability over all hash assignments",[PF+":count"])
p("C54","The bias tables describe the mean of the raw estimate",
  "For every precision from 4 to 18 the tables of raw estimates and of biases have the same length, at least 79. For every entry, raw estimate minus bias is (up to rounding) a whole number n of values, 1 <= n <= 5m, increasing along the table; and the raw estimate of the table equals alpha m^2 / mu with relative error at most 0.0018 + 3.2/m, where mu is the mean, over all assignments of hashes to n values, of the sum of 2^-M[j] over the registers M of the sketch.",
  "all precisions, all entries of both tables, mean over all assignments of hashes","a mean over 2^(64 n) assignments for each of 2900 table entries; a mistyped digit in a table changes some estimates by a percent, which no test notices",[HP+":estimate_bias","src/constants.rs"])
p("C55","HyperLogLogPlus::count is accurate for every cardinality",
  "Insert n <= 2^59 values with independent uniform 64-bit hashes into a new HyperLogLogPlus with m = 2^p registers, 8 <= p <= 18, and call count. For 0 < delta <= 1/10 the result differs from n by at most (1.05 delta + 0.005 + 4/m)(n + 1.6 m), except with probability at most 2.5/(m delta^2). This covers the sparse form, linear counting, the bias correction with its tables, the raw estimate, and the changes between them.",
  "all n <= 2^59, precisions 8 to 18, deviations delta, average over all assignments of hashes","a test draws a few samples at a few cardinalities; an error in a rarely used branch or table entry goes unnoticed",[HP+":count",HP+":estimate_bias",CM+":linear_count",CO])
p("C56","HyperLogLogPF::count is accurate up to 2^32/30, with a bounded bias above 2m",
  "Insert n values with independent uniform 64-bit hashes into a new HyperLogLogPF with m = 2^p registers, 8 <= p <= 16, and call count. For 0 < delta <= 1/10 and (1 + delta + 1.1/m + 0.001) n <= 2^32/30 the result differs from n by at most (1.05 delta + 0.005 + 4/m)(n + 1.6 m), plus 0.11 m if n > 2m (the bias of the raw estimate, which this type does not correct), except with probability at most 3.4/(m delta^2).",
  "all such n, precisions 8 to 16, deviations delta, average over all assignments of hashes","a test draws a few samples at a few cardinalities",[PF+":count",CM+":linear_count",CM+":estimate_raw_plus"])
p("C57","count is accurate in every program, not only after a plain run of insertions",
  "Take any program over any number of sketches (new, clone, insert and its deprecated names, merge, count, save and load), all with the same builder, whose values get independent uniform 64-bit hashes that the program does not depend on. If sketch i has precision p >= 8 and has received, directly or through clones, loads and merges, exactly the set V of n values, then count on it is within the bounds of C55 (HyperLogLogPlus) or C56 (HyperLogLogPF) of n, with the same probability: duplicates, order, merging and calls to count in between cost no accuracy.",
  "all programs, all sketches in them, 32- and 64-bit targets, all deviations delta, average over all assignments of hashes","tests merge a few fixed sketches",[HP+":merge",HP+":count",PF+":merge",PF+":count"])
p("C58","Small sets are counted exactly with high probability",
  "In any program as in C57, if a HyperLogLogPlus of precision p received exactly n values, n <= 5000 and 25 n <= 4 * 2^p, then count rounded down is exactly n except with probability at most n(n-1)/2^26. If a HyperLogLogPF of precision p received exactly n values and n(n+1) < 2^p, then count rounded down is exactly n except with probability at most n^2/(2 * 2^p).",
  "all programs, all precisions, all such n, average over all assignments of hashes","the unit tests check this for a handful of values with one hash function",[HP+":count",HP+":insert",PF+":count",CM+":linear_count"])
p("C59","The no_std logarithm has an error below one unit in the last place",
  "For every positive double x the result of the crate's log differs from the exact ln x by less than one unit in the last place of ln x, as the comment at the head of src/log.rs claims. n * ln2_hi is exact for |n| < 2000, as the same comment says.",
  "all 2^63 positive doubles, subnormal ones included","2^63 arguments against an exact value that is irrational; the claim is only supported by a reference to an error analysis",[LG+":log"])
p("C60","Bounds on count for every hash function",
  "Whatever the hashes are (they may be chosen by an adversary), in any program HyperLogLogPlus::count returns a finite number between 0.44 k and 1.461 * 2^64, where k is the number of distinct registers the hashes of the received values belong to, and at least 1 if a value was received. HyperLogLogPF::count returns infinity, NaN, or a number between k and 37 * 2^32.",
  "all programs, all hash functions, all precisions, all logarithms within the stated error","the worst case over all sets of 64-bit hashes",[HP+":count",HP+":estimate_bias",PF+":count",CM+":linear_count",CM+":estimate_raw_plus"])
p("C61","Insertions do a bounded amount of work on average",
  "Insert n values into any HyperLogLogPlus a program can reach. No insertion panics. The number of insertions that merge the temporary set into the list of codes, times floor(4*2^p/500)+1, is at most n plus the number of codes in the temporary set at the start. All these merges together look at no more than 101 codes for each of these values. A dense sketch stays dense and never merges.",
  "all programs, all runs of insertions, all hash functions, all iteration orders","a benchmark measures a few runs; the amortised bound holds for adversarial hashes too",[HP+":insert_impl",HP+":merge_sparse"])
p("C62","The probability of a large error of count decays exponentially",
  "In any program as in C57, a sketch of precision p >= 8 that has received n distinct values, with m = 2^p and 0 < delta <= 1/10: count of a HyperLogLogPlus (n <= 2^59) differs from n by more than (1.05 delta + 0.005 + 4/m)(n + 1.6 m) with probability at most 6 exp(-m delta^2 / 4); count of a HyperLogLogPF with (1 + delta + 1.1/m + 0.001) n <= 2^32/30 differs by more than the bound of C56 with probability at most 4 exp(-m delta^2 / 6). For p = 14 an error of 12 % has probability below 10^-14.",
  "all programs, all sketches in them, 32- and 64-bit targets, all deviations delta, average over all assignments of hashes","events this rare never occur in a test run",[HP+":count",PF+":count",CM+":estimate_raw"])
p("C63","Contracts of the helper functions",
  "extract (u64 and u32) with low < high <= width returns the number formed by bits low to high-1 of its argument, without panicking, in all builds. An empty range high = low >= 1 of a u64 is not extracted as 0: extract panics in builds with overflow checks and returns the argument shifted left by 64-high otherwise (the crate never asks for one). ceil(n, d) with n + d below the maximum of usize is the smallest k with n <= k*d. estimate_raw, over any non-empty list of registers below 64, returns the value that estimate_raw_plus returns in each of its variants, together with the number of registers equal to 0.",
  "all words, all bit positions, both build modes, all register contents","2^64 words times 2080 pairs of positions",[CM+":extract",CM+":ceil",CM+":estimate_raw"])
p("C64","A HyperLogLogPlus stays sparse for a guaranteed number of values and no longer",
  "In every program and for every hash function, a HyperLogLogPlus of precision p that has received n distinct hashes is sparse whenever 5n, 4n+15 or 3n+2047 is at most 4*2^p/5 (3686 values for p = 14). It is dense in every state in which its hashes have more than 101/100 of 4*2^p/5 different 25-bit prefixes, and right after count already when they have more than 4*2^p/5.",
  "all programs, all hash functions, all iteration orders","the moment of conversion depends on the hashes; adversarial ones are not among the samples",[HP+":insert_impl",HP+":merge_sparse",EN+":push"])
p("C65","Serialised sketches can be moved between machines and combined",
  "Take any system of processes that exchange serialised sketches through files: each process loads any files written earlier, makes any calls, and writes its sketches. The processes may differ in features, build mode, pointer width (32-bit ones only if no precision above 15 is used), version of the standard library, logarithm and hash seeds of their sets. No call panics, every file is accepted, and all results are those of the sets of hashes received. Sketches moved to another machine behave as if that machine had made all calls itself. If workers fill sketches with parts of the data and a coordinator loads and merges them, its count is that of one sketch that received all the data.",
  "all systems of processes, all programs in them, all combinations of builds","a test suite runs in one process on one platform",[HP+":HyperLogLogPlus",PF+":HyperLogLogPF",HP+":merge",PF+":merge",EN+":DifIntVec"])
p("C66","How likely an insertion is to change a dense sketch",
  "Inserting a value into a dense HyperLogLogPlus, or a HyperLogLogPF, leaves every field as it is if and only if the rank of its hash is at most the register of its bucket. The number of 64-bit hashes that do change a dense HyperLogLogPlus is the sum of 2^(64-p-M) over its registers M, where full registers (M = 65-p) count 0; for HyperLogLogPF it is 2^32 times the sum of 2^(32-p-M). So while no register is full, a uniform hash changes the sketch with probability H/m, H being the harmonic sum that count uses; and no hash changes it exactly if all registers are full.",
  "all reachable sketches, all 2^64 hashes","counts all 2^64 hashes for every reachable state",[HP+":insert_impl",PF+":insert_impl",CM+":set_greater"])
p("C67","How often the example of the documentation fails",
  "The documented example inserts two values into a sketch of precision 16 and asserts that count, rounded down, is 2. In any program with random hashes, on a HyperLogLogPlus of any precision p that received exactly two values, the assertion fails with probability exactly (2^25 - 2^p)/2^50 + 2^p (4^39 + 2)/(3*2^128), about 1 in 33.6 millions. On a HyperLogLogPF that received exactly n values, n(n+1) < 2^p, count rounded down is n with probability exactly (1 - 1/2^p)(1 - 2/2^p)...(1 - (n-1)/2^p).",
  "all programs, all precisions, all assignments of 64-bit hashes","an exact probability over 2^128 pairs of hashes",["README.md",HP+":count",HP+":encode_hash",PF+":count",PF+":insert_impl"])
p("C68","HyperLogLogPF on targets with a 16-bit usize",
  "On a target whose usize has w >= 5 bits, programs using precisions below w/2 only (up to 7 for w = 16) give the same results as on 64-bit targets. With precisions up to w-1, programs that do not call count still do. On sketches of precision from w/2 to w-1 count always panics with overflow checks; without them it is 0 as soon as every register has been hit. For w = 16, new(16) panics with overflow checks; without them it returns a sketch with one word of registers, on which almost every insertion panics.",
  "all programs, all widths of usize","needs 16-bit hardware or an emulator",[PF+":new",PF+":count",CM+":estimate_raw_plus",CM+":with_count"])
p("C69","Bias and standard error of HyperLogLogPlus::count",
  "In any program as in C57, on a HyperLogLogPlus of precision p, m = 2^p, that has received exactly n distinct values, 6m < n <= 2^59, count returns a number for every assignment of hashes. Its root mean square error is at most (1.12/sqrt(m) + 0.001) n for p >= 14 (the literature gives 1.04/sqrt(m)) and (1.35/sqrt(m) + 0.001) n for p >= 12, and its mean differs from n by at most (0.0007 + 3/m) n for p >= 12.",
  "all programs, all such n, average over all assignments of 64-bit hashes","a simulation estimates mean and variance at a few cardinalities only, and misses rare large errors",[HP+":count",HP+":insert_impl",CM+":estimate_raw_plus",CM+":alpha"])
p("C70","count is accurate at all times while a sketch grows",
  "Run any program with random hashes and watch one sketch of precision p >= 8, m = 2^p, all the time. Except with probability at most (36m + 25606) exp(-m d^2/4), HyperLogLogPlus::count returns, after every single call of the program, a number within (1.05 d + 0.01 + 4/m)(n + 1.6m) of the number n <= 2^59 of distinct values received so far. The bound does not depend on the length of the program. HyperLogLogPF: the same while (1 + d + 1.1/m + 0.001) n <= 2^32/30, with a further error of 0.11m for n > 2m, and probability (24m + 9220) exp(-m d^2/6). Here 0 < d <= 1/10.",
  "all programs of any length, all moments at once, fraction of all assignments of 64-bit hashes","the statement is about the worst moment of a run of any length, with failure probabilities below 10^-11",[HP+":count",HP+":insert_impl",PF+":count",PF+":insert_impl",CM+":estimate_raw_plus","evaluation/README.md"])
p("C71","Errors are reported exactly when they should be, with the right text",
  "After any program, a call returns an error exactly if it is new with a precision outside 4..=18 (HyperLogLogPlus) or 4..=16 (HyperLogLogPF), printed as 'precision is out of bounds', or merge of two existing sketches of different precisions, printed as 'precisions must be equal'. Display honours the options of a format string: for every fill, alignment, width and precision the text is cut to the precision and filled up to the width. The two errors have different Display and Debug texts.",
  "all programs, all format options","tests trigger each error once and do not use format options",[LB+":HyperLogLogError",LB+":fmt",HP+":new",HP+":merge",PF+":new",PF+":merge"])
p("C72","How much count can drop when values are added",
  "For every history, hash function and continuation: the count of a HyperLogLogPlus that has left the sparse representation never gets smaller by more than a factor 4.4; that of any HyperLogLogPlus of precision p by at most a factor 0.82*2^p and by at most a factor 2.4*(2^(25-p)+39); that of a HyperLogLogPF by at most a factor 0.52*p while the raw estimate is below 2^32. The bounds have the right order: at every precision one more value can lower the count of a HyperLogLogPlus by a factor 0.7*min(2^p, 2^(25-p)) and that of a HyperLogLogPF by a factor 0.47*p, and a dense HyperLogLogPlus can lose a factor 1.7.",
  "all programs and continuations, all hash functions, all precisions","tests use benign hashes and look at one moment, not at pairs of moments",[HP+":count",HP+":estimate_bias",PF+":count",CM+":linear_counting"])
p("C73","The choice of the logarithm does not matter",
  "For any two implementations of the natural logarithm that are within a relative 2^-40 of the true one, and any two build profiles with the same binary search of the standard library: the same program brings the same sketch to the same estimator. A dense HyperLogLogPlus of precision p uses linear counting exactly if at least cutoff(p) of its registers are zero, a table of 15 integers, although the code compares a floating point logarithm to a threshold. The two counts agree to a relative 2^-38 where a logarithm is used and are identical where none is; the infinity and the NaN of the large range of HyperLogLogPF occur for both or for neither. In particular a HyperLogLogPF of a build without std, which uses the logarithm of src/log.rs, agrees with one of a build with std.",
  "all programs, all logarithms meeting the error bound, all build profiles","f64::ln is not specified to the last bit; a test sees the one of its platform, and not the sketches next to a threshold",[HP+":count",HP+":threshold",PF+":count",CM+":linear_counting",CM+":ln",LG+":log"])
p("C74","Standard error at every cardinality",
  "Let the hash of each value be drawn uniformly and independently. If a HyperLogLogPlus of precision p >= 13 has received n <= 2^59 distinct values, by any program, then count returns a finite number for every outcome of the hashes, and the root mean square of its error is at most (1.67/sqrt(m) + 0.005 + 4/m)(n + 1.6 m), where m = 2^p; unlike C69 this also covers the numbers of values for which linear counting, the bias tables and the raw estimate may each be chosen, depending on the hashes.",
  "all programs, all sets of values up to 2^59, all precisions from 13, the exact distribution of the hashes","the expectation ranges over 2^(64 n) assignments of hashes; near the thresholds the outcomes that matter are rare",[HP+":count",HP+":estimate_bias",CM+":linear_counting",HP+":threshold"])
p("C75","Intersections and differences computed from counts",
  "Let three sketches of precision p >= 8 have received the values A, B and A union B, by any program, with random hashes, and let x, y, z be their counts. Then x + y - z differs from |A intersect B|, and z - y from |A minus B|, by at most a stated multiple of the sizes of the sets plus m, except with probability at most 18 exp(-m d^2/4) for HyperLogLogPlus and 12 exp(-m d^2/6) for HyperLogLogPF. The counts are not subadditive: while HyperLogLogPlus sketches are sparse, the count of the union of two nonempty sketches without a common code always exceeds the sum of their counts, although |A union B| <= |A| + |B|.",
  "all programs, all pairs of sets, all precisions from 8, the exact distribution of the hashes","the probability is over all assignments of hashes; the strict inequality of counts is beyond the tolerance of a test that compares estimates",[HP+":merge",HP+":count",PF+":merge",PF+":count",CM+":linear_counting"])
p("C76","Sketches with different hashers count shared values twice",
  "Let a program use any number of builders, as with a RandomState per sketch, each an independent random hash function. The count of a sketch of precision p >= 8 is then close to the number of pairs of a builder and a value that it received, itself or through merges, within the bounds and probabilities of C62. In particular merging a sketch that received the values B with one builder into a sketch that received the values A with another one is accepted, and the count is then close to |A| + |B|, however many values A and B share.",
  "all programs, all numbers of builders, all sets of values, the exact distribution of the hashes","merge accepts any builder, so tests that use one builder for all sketches never see this",[HP+":merge",HP+":count",PF+":merge",PF+":count"])
p("C77","The claim on the front page: 2 % in 1.5 kilobytes, well beyond 10^9",
  "In any program, with random hashes, on a HyperLogLogPlus of precision p >= 11, m = 2^p, that has received exactly n distinct values, 24m < n <= 2^59, count returns a number for every assignment of hashes, and its root mean square error lies between (0.98/sqrt(m) - b) n and (1.07/sqrt(m) + b) n, b = 0.00066 + 1.1/m. At precision 11, the one that takes 1.5 kilobytes, it lies between 2.04 % and 2.49 %; a dense sketch then has 410 words of 32 bits. For HyperLogLogPF, the original algorithm the documentation speaks of, the claim fails: for 1.5*10^9 <= n <= 2^31 and every precision from 11 to 16 the count is at least 7 % too large with probability at least 62 %.",
  "all programs, all such n, average over all assignments of 64-bit hashes","a lower bound on an expected error cannot be tested at all, and no test inserts 10^9 values",[LB+":1-9",HP+":count",PF+":count",CM+":estimate_raw_plus"])
EV="evaluation/src/main.rs"
p("C78","The evaluation program measures what its README says",
  "The files of hashes that evl gen writes are read back by evl run as the same numbers, and different runs write different files; a file with a number that does not fit the type, or a precision that new rejects, makes evl run panic. Otherwise evl run does not panic, for any file with fewer than 2^64 hashes and any file of cardinalities: its output has one line per hash (per cardinality), with the number of values inserted so far and the integer part of the estimate for exactly the set of hashes so far. If the hashes are random, all estimates of one output are close to the true numbers at once: for HyperLogLogPlus of precision p >= 8, m = 2^p, up to 2^59 values, within (1.05 d + 0.01 + 4/m)(n + 1.6 m) + 1 of n for every line, except with probability (36 m + 25606) exp(-m d^2/4); similarly for HyperLogLogPF with random 32-bit hashes. The mean relative error that exp.py plots is at most 1.07/sqrt(m) + 0.00066 + 1.1/m + 1/n for HyperLogLogPlus with n > 24 m, p >= 11, and a stated bound for every n if p >= 13.",
  "all files of hashes and cardinalities, all precisions, all hash set orders; the fractions are over all vectors of hashes","the program has no tests; its figures show 500 samples",[EV+":generate",EV+":load",EV+":save",EV+":run_impls",EV+":PassThroughHasher",EV+":Estimation","evaluation/README.md","evaluation/exp.py:calculate_statistics"])
p("C79","HyperLogLog++ is more accurate than HyperLogLog for small cardinalities",
  "As evaluation/README.md claims: take any program on sketches of type HyperLogLogPlus and any program on sketches of type HyperLogLogPF. If a sketch of each has the same precision p in 4..=16 and received the same number n >= 1 of distinct values, with 5n, 4n + 15 or 3n + 2047 at most 4*2^p/5 (so that the sparse representation is used), then for random hashes the root mean square error of count of the former is at most 40% of that of the latter. It is at most (2^-12 + 1.19 n/2^25) n for HyperLogLogPlus (p up to 18), and at least 0.47 sqrt(n(n-1)/2^p) for HyperLogLogPF with 2 <= n <= 0.27*2^p.",
  "all programs, precisions and sets of values; the means are over all assignments of 64-bit hashes","a mean over all hash functions cannot be computed; the figures show 500 samples",["evaluation/README.md",HP+":count",PF+":count"])
p("C80","How long a HyperLogLogPlus stays sparse with random hashes",
  "In every program with random 64-bit hashes, a HyperLogLogPlus of precision p that has received n distinct values is sparse if 2.04 n + 4200 <= 4*2^p/5, except with probability 1e-7 over the hashes, and dense if n > 0.62*4*2^p/5, except with probability 2e-7, whatever was called in between (so for p = 14 the change happens between 4366 and 8127 values, for p = 18 between 100743 and 130025; C64 has 0.33 and 1.01 times 4*2^p/5 as bounds over all hash functions).",
  "all programs, all precisions, all iteration orders; the fractions are over all assignments of 64-bit hashes","a probability of 1e-7 over all hash functions cannot be sampled",[HP+":insert_impl",HP+":merge_sparse",HP+":encode_hash",EN+":push"])
p("C81","The script of the experiments does what the README says",
  "generate_cardinalities of evaluation/exp.py terminates for every maximum M up to some limit L, less than 0.72 % below 2^1024, after at most 101 log2(M) steps (rounded up), with a strictly increasing list of positive integers that starts with 1, has exactly one element from M on, which is below 1.0071 M, and consists of the integer parts of a geometric series with ratio 1.007, up to rounding errors; above L it raises OverflowError. Both experiments run from beginning to end without an error, for every precision, number of runs and vectors of hashes, and every maximum up to 2^51: evl reads the file of cardinalities (or of hashes), and calculate_statistics makes of the files that evl writes a table with one row per cardinality t, which has the mean, median and standard deviation of the relative errors |e - t|/t over the runs, up to a relative error of 2^-50 each, where e is the integer part of the estimate for the set of the first t hashes. A file with a cardinality 0 raises ZeroDivisionError, and a cardinalities.dat among the results raises IndexError.",
  "all maxima, all numbers of runs, all files that evl can write, all random numbers, all precisions","the script has no tests; it needs hours to run; errors would only show as strange figures",["evaluation/exp.py:generate_cardinalities","evaluation/exp.py:calculate_statistics","evaluation/exp.py:prepare","evaluation/README.md",EV+":run_impls"])
p("C82","Which estimator count uses with random hashes",
  "In every program with random 64-bit hashes, let a sketch of precision p >= 8 (m = 2^p registers) have received n distinct values, and let T be the linear counting threshold of p. HyperLogLogPlus::count returns linear counting on the registers if n > 0.62*4m/5 and n + 2 <= (1-d)T, except with probability 2 exp(-m d^2/10) + 2e-7; the raw estimate minus its bias if (1+d)T <= n <= 4.5m, except with probability 2 exp(-m d^2/22) + 2 exp(-m/400) + 2e-7; the raw estimate if 6m < n <= 2^59, except with probability 2 exp(-m/400), and exp(-0.06m) if n >= 11m. HyperLogLogPF::count returns linear counting if n <= 2m, except with probability 2 exp(-m/400) + 2 exp(-m/30), and the raw estimate if 6m < n <= 7e7, except with probability exp(-0.06m) + exp(-0.078m). So the benchmarks named below_thres and above_thres measure what their names say: linear counting for 10 000 strings at precision 14 (except with probability 1e-6) and 49 000 at precision 16 (except with probability 0.5 %), the raw estimate for those above (2e-6), the sparse form for the benchmarks of insert at precision 14 and 16 and the dense one at precision 8 (2e-7).",
  "all programs, all precisions from 8, all numbers of values in the stated ranges, all logarithms that are accurate to the stated bound, all iteration orders; the fractions are over all assignments of 64-bit hashes","the probabilities are over all hash functions; which estimator was used cannot be seen from the number returned",[HP+":count",HP+":threshold",PF+":count","benchmarks/benches/hyperloglog.rs:bench_count","benchmarks/benches/hyperloglog.rs:bench_insert"])
p("C83","What chosen values can do",
  "Someone who knows the hash function can mislead every sketch. For every program that uses at most 2^39 values there are pairwise different hashes of these values such that every HyperLogLogPlus that received any of them counts between 1 and 1 + 2^-23; values whose hash begins with the same 25 bits as that of a value already seen, not all zero from bit p on, never change the count. A HyperLogLogPF of precision p that received any of 2^(31-p) chosen hashes counts between 1 and 1.07. In the other direction, for every program and every HyperLogLogPlus of precision p in it that received at least 2^p values (16 values at precision 4) there are pairwise different hashes such that it counts at least 171*2^57, more than 1.3*2^64, and a HyperLogLogPF counts NaN; once the 2^p hashes that end in zeros have been received, directly or by merging, this is so whatever else the sketch receives. By C60 no hashes give more than 187*2^57.",
  "all programs, all precisions, all sets of chosen hashes, all logarithms that are accurate to the stated bound","tests use random or sequential values; hashes that inflate a count like this have probability below 2^-400 even at precision 4 and are never met by chance",[HP+":encode_hash",HP+":count",PF+":insert_impl",PF+":count",CM+":estimate_raw"])
p("C84","A sparse sketch answers questions about membership and inclusion",
  "In every program, insert a value into a HyperLogLogPlus that is sparse afterwards: the count stays exactly as it is if a hash with the same sparse code was received before, and otherwise grows by more than 1/2. Merge another sketch of the same precision into it, the result being sparse: the count stays exactly as it is if and only if all sparse codes of the other are among its own, and otherwise grows by more than 1/2. So with random hashes, if the sketch received the n values A and 5n', 4n' + 15 or 3n' + 2047 is at most 4*2^p/5 (n' the number of values afterwards), inserting a value of A again, or merging a sketch with values B, B a subset of A, never changes the count, and inserting any other value, or merging any other B, increases it by more than 1/2 except with probability n/2^25.",
  "all programs, all precisions, all values and sets of values, all logarithms that are accurate to the stated bound; the fractions are over all assignments of 64-bit hashes","a probability of n/2^25 over all hash functions cannot be sampled, and the equivalence speaks about all reachable states",[HP+":insert_impl",HP+":encode_hash",HP+":merge_sparse",HP+":count",CM+":linear_counting"])
p("C85","Drawing conclusions from counts: intervals, order, similarity, set operations",
  "In every program with random 64-bit hashes, let m = 2^p and e = 1.05 d + 0.005 + 4/m with 0 < d <= 1/10. If a HyperLogLogPlus of precision p >= 8 received n <= 2^59 distinct values and counts x, then n + 1.6m lies between (x + 1.6m)/(1+e) and (x + 1.6m)/(1-e), except with probability 6 exp(-m d^2/4) (HyperLogLogPF: with x -+ 0.11m, except with probability 4 exp(-m d^2/6), while n is below 2^32/30/(1 + d + 1.1/m + 0.001)). Of two sketches the one with clearly more values, (1+e)(|A| + 1.6m) < (1-e)(|B| + 1.6m), has the larger count, except with probability 12 exp(-m d^2/4). If three sketches have A, B and their union and count x, y, z, then (x+y-z)/z differs from the Jaccard index |A meet B|/|A join B| by at most 4t/(1-t), t = e(1 + 1.6m/|A join B|) < 1, except with probability 18 exp(-m d^2/4). The root mean square errors of x+y-z as the size of the intersection and of z-y as that of A minus B are at most E(|A| + |B| + |A join B| + 4.8m) and E(|B| + |A join B| + 3.2m) with E = 1.67/sqrt(m) + 0.005 + 4/m for p >= 13; without the multiples of m and with E = 1.07/sqrt(m) + 0.00066 + 1.1/m for p >= 11 and more than 24m values in each set; and with E = 2^-12 + 1.19 |A join B|/2^25, for every p, if both sets are nonempty and 5n, 4n + 15 or 3n + 2047 is at most 4m/5, n the size of the union.",
  "all programs, all precisions and sets of values in the stated ranges, all logarithms that are accurate to the stated bound; probabilities and means are over all assignments of 64-bit hashes","the probabilities and means are over all hash functions and cannot be computed by sampling; the crate offers no set operations besides merge, so it has no tests of them",[HP+":count",HP+":merge",PF+":count",PF+":merge"])
p("C86","Sketches as JSON text",
  "Let a program keep its sketches as JSON text, compact or indented, as the tests of the crate do. If what the builder is written as has no Option, no key with escapes and at most 126 levels, then reading what was written, also with white space around it, gives exactly what a reader of the values themselves would get; so the program behaves in every call like one that does not go through text, writing and reading a sketch at any point succeeds and is like cloning it, and the format does not matter. A text that was cut short anywhere is rejected, and so is a text followed by anything but white space. Sketches read from any text at all that pass the checks of C36 never make a call panic; without the checks there is a text of 142 characters that is accepted and makes every insert, count and merge panic. The compact text of a sketch has at most 4*2^p + 250 characters besides the builder (HyperLogLogPF: 2*2^p + 150), however many values it received.",
  "all programs, all states, all builders that can be written, all positions where a text is cut, all continuations, all formats that differ in white space","the tests read back three sketches from the text they were written as; they cut no text and compare one count",[HP+":tests::test_serialization",PF+":tests::test_serialization",HP+":HyperLogLogPlus",PF+":HyperLogLogPF",EN+":DifIntVec",CM+":registers"])
p("C87","Standard error at every cardinality, from 256 registers",
  "Let the hash of each value be drawn uniformly and independently. If a HyperLogLogPlus of precision p >= 8 has received n <= 2^59 distinct values, by any program, then count returns a finite number for every outcome of the hashes, and the root mean square of its error is at most e(n + 1.6 m), e = 3/sqrt(m) + 0.005 + 4/m, where m = 2^p; so are the mean absolute error and the distance of the mean from n, and an error of t times that has probability at most 1/t^2 for every t. If three such sketches received A, B and the union of A and B, the root mean square error of the size of the intersection computed from their counts is at most e(|A| + |B| + |A union B| + 4.8 m), and that of the difference at most e(|B| + |A union B| + 3.2 m). C74 and C85 have smaller constants but need p >= 13.",
  "all programs, all sets of values up to 2^59, all precisions from 8, the exact distribution of the hashes","the expectation ranges over 2^(64 n) assignments of hashes; with few registers the outcomes far from the mean, which hardly any run sees, contribute to the mean square",[HP+":count",HP+":estimate_bias",CM+":estimate_raw_plus",CM+":linear_counting",HP+":threshold"])
p("C88","Standard error of HyperLogLogPF",
  "Let the hash of each value be drawn uniformly and independently. If a HyperLogLogPF of precision p >= 8 has received n <= 2^26 distinct values, by any program, then count returns a number except with probability at most exp(-0.078 m), m = 2^p. If p >= 13, the root mean square of the error of that number (0 where count returns none) is at most e(n + 1.6 m), e = 2.25/sqrt(m) + 0.005 + 4/m, plus 0.11 m if n > 2m. If three such sketches received A, B and the union of A and B, then, with the same convention, the root mean square error of the size of the intersection computed from their counts is at most e(|A| + |B| + |A union B| + 4.8 m) + 0.33 m, and that of the difference at most e(|B| + |A union B| + 3.2 m) + 0.22 m. The term 0.11 m allows for the raw estimate being used uncorrected above 2.5 m.",
  "all programs, all sets of values up to 2^26, all precisions from 8 or 13, the exact distribution of the hashes","the expectation ranges over 2^(64 n) assignments of hashes, and it includes outcomes (32-bit collisions, a saturated raw estimate, the switch between the estimators) which hardly any run sees",[PF+":count",PF+":insert_impl",PF+":merge",CM+":estimate_raw",CM+":linear_count"])
p("C89","The evaluation program with several threads",
  "Let evl gen or evl run work with any number of threads, and let the system calls of its runs (opening and reading an input file in parts of any size, emptying an output file and writing it in parts of any size) be interleaved in any way. If the output files are different and none is an input file, every execution ends, after at most a number of calls given by the lengths of the files, and then every output file has exactly the contents that the run writes alone; at every moment an output file is as before or holds a beginning of its final contents, a run that panics leaves its output file alone, and all other files are unchanged. For evl gen and for mode cardinalities the output files are always different; for mode hashes they are if the last parts of the paths of the input files are different. If they are not, one thread leaves the complete output of one of the runs, but with two threads the file may end as the shorter output followed by the end of the longer one: for files with the hashes x, x and x, y, z (different codes) the lines 1 1, 2 1, 3 3, which is the output for neither. If the longer output is written in parts, the file may also end as the shorter output, then bytes 0, then the end of the longer one. The statistics of exp.py notice this: a file with a byte 0 anywhere makes calculate_statistics raise an exception.",
  "all interleavings, all numbers of threads, all sizes of reads and writes, all files, both types","an interleaving cannot be chosen in a test; the program has no tests",[EV+":generate",EV+":run_impls",EV+":load",EV+":save"])
p("C90","The experiments of the script from beginning to end",
  "exp.py prepare --type hashes --size 64 into a directory, exp.py run --type hllp --mode hashes from there to another directory and the statistics that exp.py plot computes from it (and the same with size 32 and type hll; and prepare --type cardinalities with run --mode cardinalities, for both types): if there are no .dat files in the directories at the beginning, the command lines that the script writes are accepted by evl, none of the runs panics, every execution of each command ends, for all numbers of jobs (0 is the default of rayon), all random values, all orders in which glob lists the files and all interleavings of the threads; then the output directory has exactly the files est-p{p}-hashes-s64-r{r}.dat (est-p{p}-cards-s64-r{r}.dat) for the runs r, and the table has one row for each number of values, computed from the relative errors of the truncated estimates for the values drawn in each run, correct up to a factor 1 +- 2^-50. Files *.dat that were in the output directory before and are not written again, for example for another precision, stay there and enter the statistics. run with a precision that new rejects never succeeds, and neither does run --type hll on files of 64-bit hashes with a value of more than 32 bits. Negative numbers, and run --mode hashes on a directory without .dat files, are rejected by evl before anything is written, and a precision from 256 makes it panic before it reads a file.",
  "all numbers of runs, hashes and jobs, all precisions, all random values, all interleavings, all orders of glob, all names of directories that do not begin with - or end with /","the script and the program have no tests; random values, threads and the order of glob cannot be chosen in a test",[EV+":main",EV+":generate",EV+":run_impls","evaluation/exp.py:prepare","evaluation/exp.py:run","evaluation/exp.py:calculate_statistics"])
p("C91","The evaluation program when reading and writing can fail",
  "Let evl gen or evl run work with any number of threads, let their system calls be interleaved in any way, and let any of the calls fail at any time (a file that cannot be opened, read or created, a disk that becomes full). If the output files are different and none is an input file, every execution ends; at every moment the output file of a run that is finished holds exactly the contents that the run writes alone, any other output file is as before or holds a beginning of its final contents, and all other files are unchanged. Every call that opens, reads, creates or writes a file can fail, and the executions in which none fails are those of C89. If any call fails, the exit status is 101, and it is 0 exactly if all runs are finished; so what C89 and C90 say about a run holds whenever the script goes on after it. But files that were cut are not recognised afterwards: every proper beginning of a file can be what a single failed write leaves; evl run reads every beginning of a file of hashes without an error, and if it is cut in a line takes the next hash divided by a power of ten for a hash; and calculate_statistics reads a file of results that is cut in the estimate of a line without an error, takes the estimate divided by a power of ten for the estimate, and computes the rows below from the other files only.",
  "all interleavings, all numbers of threads, all sizes of reads and writes, all files, all calls at which a failure can happen and any number of failures, all positions where a file is cut","failures of system calls at a chosen moment cannot be produced by tests of the program; the program has no tests",[EV+":load",EV+":save",EV+":generate",EV+":run_impls","evaluation/exp.py:run","evaluation/exp.py:prepare","evaluation/exp.py:calculate_statistics"])
p("C92","Exactly when the commands of the evaluation program complete, on any files",
  "A text is accepted by load for a type of w bits exactly if each of its lines (ended by a line feed, possibly after a carriage return; the last line feed may be missing) is a decimal number below 2^w, possibly with a plus sign and zeros in front, and then load returns these numbers; on any other text it panics. evl gen completes, and can complete, in exactly one way: one file per run with its random numbers, one per line, every other file unchanged. evl run in mode hashes, with any number of threads and any precision, for files with different names, none of them an output file, completes exactly if the precision is one that new accepts (4..18 for HyperLogLogPlus, 4..16 for HyperLogLogPF) and each of the files exists and is accepted for 64 (32) bits; the files afterwards are then determined: for every input file a file est-p{p}-{name} with one line for every number, its position and the estimate of the distinct numbers up to it, every other file unchanged. In mode cardinalities with at least one run it completes exactly if the precision is accepted and the file of cardinalities exists and is accepted, and every run writes one line per cardinality, the largest one so far and the estimate for that many random numbers.",
  "all texts and all widths, all file systems before and after, all precisions, numbers of threads and interleavings, all lists of input files","the program has no tests; that nothing but the described outcome can occur is a statement about all files and all interleavings",[EV+":load",EV+":save",EV+":generate",EV+":run",EV+":run_plus",EV+":run_impls",EV+":main"])
p("C93","What the experiments report if the random numbers are random",
  "An experiment of exp.py (prepare, run, and the statistics of plot) with R runs, in which the random numbers drawn by evl are independent and uniform. HyperLogLogPlus with precision p from 8, m = 2^p: for every cardinality t that occurs and every s > 0, except with probability at most 1/(s^2 R) the reported mean of the relative errors at t is below (1 + s)(b(t) + 1/t) with b(t) = (3/sqrt(m) + 0.005 + 4/m)(1 + 1.6 m/t); from precision 13 with 1.67 in place of 3, and from precision 14 for t > 6 m with b(t) = 1.12/sqrt(m) + 0.001 (the standard error in the paper is 1.04/sqrt(m)). HyperLogLogPF from precision 13 and for t up to 2^26: likewise with 2.25 in place of 3, an additional 0.11 m/t above 2 m, and an additional probability R exp(-0.078 m). For all cardinalities up to N at once: for 0 < d <= 1/10, except with probability at most R N 6 exp(-m d^2/4) the reported means and medians are at most (1.05 d + 0.005 + 4/m)(1 + 1.6 m/t) + 1/t for every t; HyperLogLogPF likewise with 4 exp(-m d^2/6), while the cardinalities are small enough for 32 bits, with an additional 0.11 m/t above 2 m. A relative rounding error of 0.00001 is added everywhere. This holds for files of hashes and for files of cardinalities, whatever the number of threads, the interleaving and the order of the files; and for all random numbers the experiment takes place and has a result.",
  "all random numbers (as a probability), all precisions, numbers of runs, cardinalities, threads, interleavings and orders of files","the program has no tests; a bound for a probability over 64-bit numbers cannot be checked by running it",[EV+":generate",EV+":run_impls",EV+":main","evaluation/exp.py:run","evaluation/exp.py:prepare","evaluation/exp.py:calculate_statistics",HP+":count",PF+":count"])
p("C94","Which command lines the evaluation program accepts, and what it does with them",
  "evl accepts a command line, of words of the form --name and values, exactly if it consists of at most one --jobs with a value, and then nothing, or gen with --size (32 or 64), --count, --runs and --output, each once, with one value and in any order, or run with --type (hll or hllp), --mode (hashes or cardinalities), --precision and --output, each once and with one value, at most one --runs and one --cardinalities, each with one value, any number of --input with one or more values each, in any order, with at least one --input in mode hashes and with --runs and --cardinalities in mode cardinalities; values do not begin with a hyphen, except for a hyphen alone. Any other command line is rejected before anything else happens. If it is accepted and the numbers that are used (jobs, count and runs below 2^64, the precision below 256) are decimal numbers, possibly with a plus sign and zeros in front, then evl does exactly what it does for the command line in the form in which the script writes it, which is described by C90 and C92; the files are those of all options --input in their order. If one of them is not such a number, evl panics before it opens a file. Without gen or run it does nothing.",
  "all lists of words, all values, all orders and repetitions of options","the program has no tests; that everything else is rejected is a statement about all lists of words",[EV+":main",EV+":generate",EV+":run_impls"])
with open('/verif/properties.jsonl','w') as f:
    for x in P: f.write(json.dumps(x)+"\n")
print(len(P))
