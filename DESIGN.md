# Formal model of HdrHistogram_rust in Lean 4

Source: `/repo` (HdrHistogram_rust 7.5.4). The code is read, never run. The claims are in `properties.jsonl`; which
theorems prove which claim, and how completely, is in `MANIFEST.json`.

## Layout

* `lean/Verif/Model/*`  – executable model, function by function. Every definition cites file and lines.
* `lean/Verif/Spec/*`   – small specification vocabulary used in theorem statements.
* `lean/Verif/Proofs/*` – lemmas and invariants.
* `lean/Verif/Props/*`  – the property theorems, named after the claim (`C09_record_effect`), each with a concrete case
  meeting its hypotheses (`example`) next to it.
* `lean/Verif/Check/*`  – the repository's own tests and documentation examples transcribed onto the model and evaluated when it is built. They check
  the model, they prove nothing. Each file says which tests of the source file it leaves out: those drawing random
  numbers, those of `sync`, and a few that would be too slow. The bytes in the test data, written by the Java
  implementation, are among what is compared.

Naming: `_partial` – the theorem proves the claim under a restriction that the English claim does not have, the docstring
says which. `_refuted` – the unrestricted claim is false of the code, with a concrete reachable witness.

## Trusted base

* Lean 4.33.0's kernel. Every theorem depends on at most the axioms `propext`, `Classical.choice` and `Quot.sound`. No own
  axioms, no `sorry`, no `native_decide`, no `bv_decide`. `decide +kernel` is used for closed computations (the
  witnesses), it evaluates in the kernel and adds no axiom.
* That the model does what the code does. The definitions of `Model` were written by reading the code; they are not
  extracted from it. The modules of `Check` run the repository's tests on the model.
* That the statements in `Props` say what the claims in `properties.jsonl` say. They use the vocabulary of `Spec`; where
  they use a model function it is the function of the public API the claim is about (`countAt`, `equivalent`, …).
* binary64: values are rationals, infinities and NaN. That rounding in the model is IEEE-754's (nearest, ties to even,
  overflow) is proved in `Props/Float` (`rnd_ieee`, `nearestEven_unique`), likewise that `sqrt` gives the nearest number
  (`sqrt_nearest`). `-0.0` is identified with `0.0`.
* Parameters standing for code outside the repository, with what is assumed of them:
  * `Fp.log2Floor` – `(low as f64).log2().floor() as u8` in the constructor: at most 63 for `low < 2^63`; exact below
    `2^45` (used for C06 only). Nothing else depends on it, so all other theorems hold for any `log2`.
  * `lg` with `Log2Law` – `log2` in the quantile iterator (C33): the floor, or one more if not a power of two.
  * `Zlib` – `flate2`. C42, the compressed half of C40, `C85_serialize`, `C85_pipeline`, `C89_adds_up_deflate`,
    `C99_write_deflate`, `C99_tool_serialize`, `C99_pipeline`, `C105_pipeline_deflate`, `C117_mixed` and C121 assume it
    inverts (`Zlib.Lawful`); C37, C38 hold for any.
  * `Dbl` with `Dbl.Lawful` – nom's `double` (C43, C44). An instance for decimal numbers shows the law can be met.
  * `Fmt` – how `{:.3}` resolves exact ties when formatting an `f64` (C43); the rest of `{:.3}` is modelled.
  * nom's `tag`, `take_until`, `alt`, `opt`, … and the base64 engine are modelled from their documentation, UTF-8 with the
    functions of Lean's library.
* crossbeam's channel is a FIFO queue, `std::sync::Mutex` is a lock. Atomics are sequentially consistent in C47–C50; the
  theorems about `Model/SyncExt` (C65, C66, `C48_outdated_loads_partial`, `C49_outdated_loads_partial`) allow any load of
  the phase to return an outdated value, as long as a recorder's loads do not go backwards.

## Modelling decisions

* **Numbers.** Machine integers are `Nat`/`Int`. Every Rust operation that could overflow, shift out of range, index out
  of bounds, `unwrap`/`expect` a `None`, or fail an `assert!`/`debug_assert!` is in the monad `M = Except Panic` with an
  explicit panic value (debug-build semantics). `f x = .ok y` therefore also says that nothing panics; `Model/Release` is the
  same code with the semantics of release builds, and C81 proves that the two agree there (`Model/LogRelease` and C99 for logs and the command line tool). Bits shifted out by `<<` are dropped, `as` casts truncate. The deserializer has a flag
  `checks` for builds with and without overflow checks.
* **Unchecked access** (`get_unchecked`) out of bounds is the panic value `oob`; C39 shows it does not occur.
* **`&mut self`.** A method becomes a function returning the new histogram; with `Result` it returns
  `(new state, Except E Unit)`, so that what a failed call has already changed is visible.
* **Counter type.** `T ∈ {u8, u16, u32, u64}` indexes `Hist T`; counts are naturals at most `T.max`.
* **usize** is 64 bits, except in `Model/Width`, which has every function that converts to `usize` or sizes a vector for any
  pointer width up to 64 and any allocator (C76–C79). `Panic.capacity` occurs only there: elsewhere memory is unlimited.
* **Floating point.** `f64` is NaN, ±∞ or a rational; every operation is the exact one followed by rounding to nearest
  even, with subnormals and overflow. `-0.0` is identified with `0.0`; no modelled function distinguishes them.
* **Loops** are structural recursion, or have fuel and a distinguished panic that is shown not to be reached.
* **Borrowing** (`B: Borrow<Histogram>`, references, lifetimes of iterators) is not represented: values.
* **Concurrency.** `sync` is a labelled transition system. Each access to shared state is one step; thread-local work is
  merged with the access next to it. A panic ends the execution; in `Model/SyncPanic` it is caught and the execution goes on. Phase and recorder count are unbounded.
  A timeout is a nondeterministic choice. `Model/SyncExt` adds outdated loads, the owner's own writes and resets
  (`DerefMut`), and dropping the `SyncHistogram` while recorders exist. `Model/SyncRelease` has the release build (wrapping
  recorder count, C91).
* **IO.** In most theorems `Write` is an in-memory buffer and `Read` a byte list (the log writer also has a writer that
  fails after a number of bytes, C43). `Model/Io` has arbitrary readers and writers: short reads and writes,
  interruptions, failures (C62, C63).

### Modelled

`src/lib.rs` all of `impl Histogram`, `RestatState`, the operator impls (`+`, `-`, `+=`, `-=`, `Sum`, `PartialEq`);
`src/core/counter.rs` as `CounterTy`; `src/iterators/*`; `src/serialization/{v2_serializer,v2_deflate_serializer,
deserializer}.rs`; `src/serialization/interval_log/mod.rs`; `src/sync/mod.rs`; the two subcommands of `examples/cli.rs` (Model/Cli); the `Display` and `source` implementations
of the error types (Model/Errors); `src/serialization/rand_varint.rs` up to the random source (Model/VarintRange).

### Not modelled

`Debug` impls and error conversions; `Clone` (the value itself); growth of the serializers' reused
buffers beyond their final length; the payload of IO errors; panics
during unwinding; benches, the argument parser and the layout of the table of `examples/cli.rs`, tests, fuzz targets, the random source of `rand_varint.rs`.

## Wrong programs

`seeded/LOG.jsonl` has one line per wrong version of the model that compiled; edits that did not even compile (about 260
of the generated ones) are left out. There are three kinds of entries, told apart by the field `run`.

* `complete` (89): everything was elaborated, going on after errors. `theorems_failed` lists the theorems of the manifest
  of that time that failed, or rest on something that failed, or whose module was not built.
* `stopped at first failure`: the build ended at the first module with an error. `first_failure` is the declaration seen
  to fail, and the only entry of `theorems_failed`; often it is a lemma and not a property theorem. The theorems in
  `not_rebuilt_rest_on_it` were *not* rebuilt: they are those whose proofs use that declaration now, according to the
  dependency graph of the present sources, so some are younger than the run. That a lemma fails shows that the proof
  as written breaks; it does not show that each of these claims is false of the edited model.
* `all affected modules built`: nothing failed. Each has a note saying why the edit changes nothing any claim speaks of,
  or which theorems were added for it.

Most stopped runs come from swapping operators and constants mechanically, so no claim was chosen beforehand; their
`claim` says so. For edits to a base module the modules about other widths and release builds were not rebuilt. A run
that hit the limit of heartbeats counts as a failure.

## Per property

| id | modelled | how proved |
|----|----------|------------|
| C01–C03, C08 | constructors, `resize`, `buckets_to_cover`, `num_bins` | closed form of the bucket loop (`Proofs/Lay`, `Layout`), invariant `WF` over `Reachable` |
| C04, C05, C07 | `bucket_for`, `sub_bucket_for`, `*_equivalent` | closed forms in terms of `Nat.log2`; classes are intervals `[val i, val (i+1))` |
| C06 | `unit_magnitude` | exact below `2^45`; `C06_refuted` for a rounding `log2` |
| C09–C12, C14, C15 | `record*` | exact post-state of one recording, induction over sequences (`SeqEffect`) |
| C13 | `update_min`, `update_max`, `min`, `max`, `min_nz` | invariant over `Reachable` (bounds) and over recording histories (exact) |
| C16 | `total_count` | invariant; `Tidy` histories for exactness |
| C17–C21, C53 | `add`, `subtract`, `restat`, `Sum` | loop invariants, pointwise count equations |
| C22, C23 | `reset`, `clear`, `set_to`, `clone_correct`, `add_correct` | from the above and C29 |
| C24–C27 | `count_between`, `value_at_quantile`, `quantile_below` | rank characterisation, monotonicity of binary64 rounding |
| C28 | `PartialEq` | against an independent statement; asymmetry by witness |
| C29–C33 | `HistogramIterator` and the five pickers | loop invariant on the iterator state, runs as lists of items |
| C34, C35 | varints, zig-zag | base-128 digits |
| C36–C42 | V2 serializer, deserializer, deflate wrapper | decode after encode by induction on runs of zeros; totality by induction on the input |
| C55, C56 | `value_at_quantile` after `quantile_below` and back; percentile forms | error bounds of binary64 rounding applied to ranks |
| C43–C46, C54 | interval log writer and parser, base64 | grammar of the lines, induction over entries and input length |
| C47 | `sync` | measure preserved by every step, for arbitrary histogram operations; instance with the real ones |
| C48–C50 | `sync` | inductive invariants; refutations by explicit executions |
| C51 | whole integer API | programs as adaptive strategies over any number of histograms, invariant `WF` |
| C52 | `mean` | error analysis in binary64 |
| C57 | operator traits | from C09, C10, C18, C21 |
| C58 | `HistogramIterator::next` for any `PickyIterator` | loop invariant over calls of `next`, picker as a parameter |
| C59 | `serialize`; specification of the format in Spec/Format.lean | tokens written = specified run-length encoding, by induction over the counts |
| C60 | `serialize`, `deserialize` | from C59 and C36 |
| C61 | `deserialize` | induction over the tokens, first count not fitting stops the loop |
| C62 | readers with `read` as in std, `read_exact`, `take`, payload buffer (Model/Io) | simulation by the parser on lists, induction on interruptions and bytes missing |
| C63 | writers with `write` as in std, `write_all`, serializers, log writer | induction on interruptions and bytes left |
| C64 | `mean`, the fold of `stdev`, binary64 arithmetic, a correctly rounded square root | no underflow because every median and the mean are multiples of 2^-118; relative errors accumulated with `Near`; the effect of the inexact mean by Minkowski's inequality for weighted root mean squares |
| C65, C66 | `sync` with outdated loads, owner actions, drop of the `SyncHistogram` (Model/SyncExt) | conservation of a measure not diminished by `reset`; histograms paired with the list of their contents; simulation; case analysis of the holder's steps |
| C67 | `V2.deserialize` with fast and slow loops, header, payload | both directions against an independent grammar; fold over the decoded numbers with the invariant of `Proofs/Deserialize`, one-step characterisation of `process_entry` |
| C68 | builder and writer of the interval log | specification `LogText` in Spec/LogText (written without the model's formatting functions); induction over the calls, the number formatting through the value of the digits |
| C69 | the nom parser of the interval log and its iterator | specification `Line` in Spec/LogText; each sub-parser characterised by an iff, then induction over the iterator's steps |
| C70 | `deserialize`, `deser_v2`, `deser_v2_compressed`, `on_decoded_num` | specification `checklist`, `BadPayload` in Spec/Refuse; the code computed on each refusal, every message shown to be acceptable or refused, hence both directions |
| C71 | recording, `add`, `subtract`, `serialize` + `deserialize` | relation `Contains` in Spec/Samples between a histogram and a list of samples; slot-wise effect theorems of the operations |
| C72 | `value_at_quantile` on top of the above | C25 gives the class of a rank; Proofs/Samples identifies it with the class of the sample of that rank; C04 bounds the class width |
| C73 | `count_between`, `quantile_below` | sums over slots rewritten as numbers of samples |
| C74 | `mean` | C52 (error against the class medians) and the distance of medians from samples, averaged |
| C75 | `stdev` | C64 (error against the class medians), triangle inequality for root mean squares, minimality of the variance about the mean |
| C76 | `Model/Width`: `index_for`, `mut_at`, `value_for`, `resize`, constructors, recording, `add`, `subtract`, counts, serializer and deserializer for a target with any pointer width and allocator | equalities with the 64-bit model under the invariant that the array length is a `usize`; lockstep simulation of the decoding loops |
| C77 | as C76 | the largest array has less than 2^24 slots (C07) |
| C78 | as C76 | from C76; refuted by a witness on 16 bits |
| C79 | as C76 | lockstep of the decoding loops along the grammar of C67; refuted by witnesses on 32 bits |
| C80 | whole API incl. floating-point queries, iterators, deserialization | exact condition of each panic as a predicate in Spec/Panics; both directions per call, then by induction over the program |
| C81 | Model/Release: all functions of lib.rs, iterators and serialization with wrapping arithmetic | relation `Agrees` (same result unless the first panics), one lemma per function, induction over programs; with C51 and C80 |
| C82 | Model/Release | induction over the counts; the 2^59 items of the witness by induction on their number |
| C83 | `value : Bytes → F64` stands for the number nom's `double` makes of the text it recognises, with a law (nearest `f64`); relation `ReadBack` between calls and entries | error analysis of the four roundings on top of the round trip of C43; integers are written exactly, so without a divisor nothing is lost after the conversion to `f64` |
| C84 | `Contains` (C71) against the items of the five iterators | running totals telescope over classes/levels (`countIn_before`); the end of `iter_quantiles` from C33 and `one_le_quot` |
| C85 | Model/Cli: both subcommands on bytes; Spec/Cli: what an input lists and what a table must say | line splitting and parsing shown equivalent to `Listing`; recording loop = recordSeq; C71/C42 for the bytes; C33, C84, C74, C75, C38 for the table |
| C86 | Model/VarintRange: the three functions, the nine ranges, what can be drawn from them | closed form of the length of the encoding (`leb_len_le`) by induction on the number of groups, compared with the ranges |
| C87 | Model/Items: `IterationValue::percentile` over the f64 model | C58 for the quantile; error bounds of four roundings; the largest f64 below 1 times 100 rounds below 100 |
| C88 | Model/Errors: `Display` and `source` of the error types, I/O errors by their text | case analysis, prefixes compared; refuted for V2DeflateSerializeError |
| C89 | `write_histogram`, the log parser, base64, both serializers, `deserialize`, `add` | C43 composed with C42, C71 and `add_spec`, by induction over the calls |
| C90 | Model/Sync, Model/SyncExt: `Contains` of the merged histogram | invariant of every histogram of the system: it holds the samples of the writes in its list (C71 for each operation), then C47_final/C65_exactly_once |
| C91 | `Model/SyncRelease.lean`: the five steps that change the recorder count with wrapping arithmetic, the rest from `Model/Sync.lean`, histograms from `Model/Release.lean` | simulation (`Agrees`) where the checked build does not panic; invariant on the count modulo 2^64; invariant on what was sent since the count was read |
| C92 | `Model/Errors.lean`: `creation`; `Holds` reads the number in a text and compares it with the arguments | C01 for the order of the checks; decimal notation is injective |
| C93 | `Model/SyncPanic.lean`: each panic of `Model/Sync.lean` caught; histogram dropped by the unwinding merge, mutex poisoned by a panic with the lock held, `lock().unwrap()` on a poisoned mutex | measures of contents with a list of the lost; invariants of `Model/Sync.lean` carried over caught panics; local and merged histograms have the same range, so a merge fails only for `u64::MAX`; contents of every histogram as in C48 |
| C94 | Model/SyncExt (outdated loads, owner), Spec/SyncExtSteps | what each recorder holds is the writes since its last send (induction over executions), with the conservation of C65; the other parts extend the invariants of C49 and C50 |
| C95 | `Model/SyncOwner.lean`: the owner puts any histogram in place of the merged one | invariant: all histograms reachable, recorder count right; exact outcome of `add` (C18) at the merging steps |
| C96 | `Model/SyncExt.lean`, any operations | simulation of each step by zero or one call on the merged histogram; invariant on each recorder's local histogram |
| C97 | the API of `Spec/Release.lean` (debug); programs see answers and read-outs (`Spec/Twin.lean`) | relation: equal but for raw max/min of the same class, zero and u64::MAX only together; preserved and not revealed by each function (relational proof of each function, `Proofs/Twin.lean`) |
| C98 | `Model/IntervalLog.lean`, `Model/Io.lean` | the split into lines of C69 is unique; a proper part of a line begins with no line; with C63 for failing writers |
| C99 | `Model/LogRelease.lean`: log iterator, writer and command line tool with wrapping arithmetic, on top of `Model/Release.lean` | `Agrees` for each function; then totality of the checked build (C44, C39, C01, C10) turns agreement into equality; sums by induction |
| C100 | `RecCall` (Spec/RecordCalls): one call of any of the six recording methods; `runAll`: a list of them, errors ignored but noted | each call is a `recordSeq` of samples fixed by the starting configuration (`enters`); invariant `From`: recording keeps the configuration, and with auto-resize off the length and `high()`; then `WF.recordSeq_perm` (C14) |
| C101 | `valueAtQuantile`, `quantileBelow`, `recordN`; samples as in C71–C73 | rank step: `⌈fl(q(n+1))⌉ ≤ ⌈fl(qn)⌉ + 1` by the half-ulp bound at `⌈fl(qn)⌉ + 1`; then counting samples up to and below the answers |
| C102 | `valueAtQuantile`, `add` | `r(m)+r(n)-1 ≤ r(m+n) ≤ r(m)+r(n)` for exact ranks; counting; two counterexamples at the f64 next above 1/3 |
| C103 | `add` between any layouts on samples; chains of copies (`CopiedVia`) | classes of all layouts are aligned at powers of two, hence nested or disjoint; ranks are preserved by the monotone `lowest_equivalent` |
| C104 | all queries of two histograms holding the same samples | the answers are functions of unit, precision, total and the counts up to trailing zeros; induction over the count arrays |
| C105 | `atResets` collects the merged histogram before every owner reset of an execution of Model/SyncExt; `histsOf` are the histograms written to the log | ghost lists of C65 split at the resets, C90's invariant at every prefix, C104_nested for the classes, then C89 and C72 |
| C106 | `withHidden` (samples with their hidden series), `reported` (highest equivalents), `KthLargest` in Spec/Correction | C23 and C71 for the contents; series of a value and of its highest equivalent compared index by index |
| C107 | `iter_quantiles`, `value_at_quantile` on a histogram that holds a list of samples (Spec/Samples) | rank of the item's quantile against the number of samples up to the classes with samples; error bounds of quotient and product; witnesses by evaluation |
| C108 | the five iterators, `quantile_below`, `count_at`, `count_between` on a histogram that holds a list of samples | SampleItem (C84) and the counting queries (C73, C27) speak about the same numbers of samples |
| C109 | mean and stdev over the samples of two histograms together (`avg_append`, `meanSq_append`) | C52 and C64 bound the error of each histogram; the identities of averages join them |
| C110 | `reRecord` of the items of `iter_recorded` and `iter_all`, recorded into `newFrom` | C29/C30 give the items class by class, the effect of a sequence of recordings gives the slots; `ExactStats` decides `max()` and `min_nz()` |
| C111 | `reset`, `setTo`, `setToCorrected`, `newFrom` | an empty reachable histogram is determined by its settings and its tracked extremes (`WF.ext_max`); C103 and C106 from the empty state; `OnlyMax` relates new and reset through a run of recordings |
| C112 | record_n, saturating_record_n, record_n_correct, == | identical post-states of `recorded` twice; twins (C97) kept by recording an equivalent value, by induction over the sequence |
| C113 | serialize, via the format of C59 | length of the run-length form by induction over the counts; pigeonhole from samples to classes |
| C114 | subtract, restat | when the loop of `subtract` raises its flag, by induction; first and last non-empty slot of the difference; snapshots via C71 |
| C115 | add, subtract, == | first and last non-empty slots of the sum (C17, C19); C114 for the difference |
| C116 | add, record, ==, and all calls of C97 | counts from the samples (C71), statistics from exactness (C36, C115), then C97 |
| C117 | record, serialize, deserialize, Sum | the part read back has the same samples and exact statistics (C71, C36), then as C116 |
| C118 | the release model, all calls of the API | C81 for the calls that cannot panic, a relational proof for the others, induction over the calls |
| C119 | `Hist.sum`, add, ==, and all calls of C97 | the non-empty classes of every part are its samples; sums hold the concatenated samples with exact statistics (C71, C115), then C116 |
| C120 | the protocol of C47 over the real histogram, and all calls of C97 | invariant: every local histogram is a blank one with its samples recorded, the merged one reports its samples exactly (C115, `recordSeq_keeps_exact` for the owner); then C116 |
| C121 | the calls listed, and all calls of C97 | induction over the tree of calls (`Grown`): every histogram holds its samples and reports them exactly (C71, C115, `recordSeq_keeps_exact`, C117), then C116; a correct zlib is a hypothesis (`Zlib.Lawful`) |

No claim is `not_applicable`.

The claim C11 says that `high()` becomes a value covering `v` "if `v` was not covered"; a covered value above `high()`
leaves `high()` as it is (storage is rounded up to whole buckets), as C11's statement has it.

Where a claim is partial because the code violates it, theorems named `_exact`, `_all`, `_iff` or `_outcome` say what the code
does in every case, the excluded ones included: `C13_max_exact`, `C13_min_exact`, `C13_min_nz_exact`, `C17_max_exact`, `C19_exact`,
`C25_outcome`, `C27_value_all`, `C33_final_iff`, `C58_item`, `C60_reserialize_iff`, `C70_panic`,
`C06_iff`, `C20_undo_iff`, `C20_undo_fit`, `C22_set_to_outcome`, `C26_zero`, `C26_one`, `C36_eq_iff`, `C36_read_stats`, `C78_new_exact`, `C78_grow_exact`,
`C48_missing`, `C49_exact`, `C50_exact`, `C52_range_all`, `C53_exact`, `C55_iff`, `C84_quantiles_last_exact`, `C56_below_all`, `C56_outcome`, `C64_stdev_all`, `C64_le_all`,
`C43_every_log`, `C45_readback_exact`, `C76_deserialize_exact`, `C79_exact`; `C94_*` for C48–C50 with outdated loads.

## Findings

Where the code does not do what the claim says. Each has a machine-checked witness unless marked (reading).

1. `highest_equivalent` of the top class is `u64::MAX - 1`, except for `u64::MAX` itself. So the largest value a
   histogram covering all of `u64` admits in `add`/`subtract` is `u64::MAX - 1`: adding or subtracting a histogram holding
   `u64::MAX` fails (`C17_refuted`, `C18_refuted`, `C20_refuted`, `C21_refuted`), a `SyncHistogram::refresh` merging it
   panics and loses the sample (`C47_max_refuted`), a V2 round trip changes `max()` (`C36_max_refuted`), and with a unit
   above 1 `add` can raise `max()` above both operands' (`C17_max_refuted`).
2. After recording only `u64::MAX`, `min_nz()` still has its initial value (`C13_refuted`, `C26_refuted`).
3. After `reset` (and after `restat` of an empty histogram) with a unit above 1, `max()` is not 0 (`C22_reset_max`,
   `C36_reset_refuted`).
4. A failing `subtract` leaves part of the counts subtracted (`C21_failed_subtract_modifies`).
5. Counters saturate one by one while `len()` goes on growing: `value_at_quantile(1.0)` can be 0 (`C25_refuted`); with
   counts adding up to more than `u64::MAX` it panics in debug builds (`C25_overflow`); `quantile_below(max())` can be
   below 1 (`C27_refuted`), the quantile iterator's last item not 1.0 (`C33_refuted`), `mean()` outside the range
   (`C52_refuted`), the order of summands matters (`C53_refuted`).
6. `==` is not symmetric (`C28_not_symmetric`).
7. The unit may be too large by one binary digit when `log2` rounds up, then `low` is equivalent to 0 (`C06_refuted`).
8. Nine `0xFF` bytes as a count make the deserializer negate `i64::MIN`, a panic in debug builds (`C37_refuted`).
9. `iter_linear` panics by overflow when the level after the last one passes `u64::MAX`, and (with 0 significant digits) by a
   shift of 64 bits when the last level lies in the class of `u64::MAX` (`C31_refuted`, exact in `C31_panic`). With 1 or more
   digits that shift silently gives 0, so the class of `u64::MAX` gets one level only.
10. `encode_counts` asserts `index_limit <= counts.len()` and then reads `counts[index_limit - 1]` unchecked (reading); C39
    shows the accesses are in bounds because of the invariant on `max_value`, not because of the assertion.
11. `record_n(v, 0)` changes `min`/`max`; `clear` keeps them (part of C13's and C22's statements).
12. `sync`: the guard protecting the recorder count is released before the phase changes.
    * An idle recorder keeps samples that no refresh sees until it is woken (`C48_idle_refuted`, no race needed).
    * A recorder dropped between draining and counting, dropped after answering, cloned before answering, or late after
      a timeout sends a histogram that is taken for another recorder's answer; the refresh returns early
      (`C48_drop_refuted`, `C48_drop_after_write_refuted`, `C48_clone_refuted`, `C48_timeout_refuted`).
    * A recorder idled between counting and phase change is waited for but never answers (`C49_refuted`).
    * Leaking the guard of `idle()` and dropping the recorder underflows the count (`C50_forget_refuted`).
13. Interval log: a comment starting with `[StartTime: ` is read as a header (`C43_comment_refuted`), headers before the
    epoch or near `2^64` s are lost (`C43_before_epoch_refuted`, `C43_time_refuted`), after a failed write the next line is
    corrupt (`C43_failed_write_refuted`), the parser makes tags `Tag::new` refuses (`C45_parsed_tag_not_valid`), `-inf` as
    maximum is written but not read (reading of nom's documentation).
14. A negative quantile can give more than quantile 0 (`C25_negative_refuted`).
15. `iter_log`'s and `iter_quantiles`' `more` never asks for further items (reading; part of the model).
16. C40's self-delimitation of compressed histograms assumes the decompressor reads all of its length-limited input.
17. C55: `value_at_quantile(quantile_below(v))` can be the class after that of `v`: with 55 of 100 samples in the class, the
    quotient 0.55 is rounded up and its product with 100 is rounded above 55 (`C55_refuted`).
18. `sync`: the phase is not protected by the lock, so even loads made with the lock held may be outdated by the last
    phase change. If the one made on reactivation is, the recorder later answers twice (`C48_outdated_wake_refuted`); if the
    one made by `idle` is, the refresh waits for ever (`C49_outdated_idle_refuted`).
19. On targets with 16-bit pointers (documented to fail "with a suitable error") a histogram whose number of slots is a
    `usize` but whose counts take more than `isize::MAX` bytes panics with "capacity overflow" (C78), e.g.
    `Histogram::<u64>::new_with_bounds(1, 10000, 3)`, or recording 2^63 into `Histogram::<u64>::new(2)`.
20. The deserializer reports a histogram that is too large for the target as `InvalidParameters`, not as
    `UsizeTypeTooSmall`, and the serializer fails on 16-bit targets from 7278 classes on although the histogram itself fits (C76).
21. On 32-bit targets a message with a run of 2^32 zeros past the last slot is refused that a 64-bit target accepts, and a
    40 byte header announcing 2^31 bytes of payload panics ("capacity overflow") instead of returning an IO error (C79).
22. In release builds the overflows of finding 5 and 9 are silent: `value_at_quantile(1.0)` is 0 for a histogram whose minimum
    is 4 (`C82_value_at_quantile_refuted`), and `iter_linear(2^63 + 1)` over a single sample at 2^63 yields 2^59 items, every
    other one at a level below the previous one (`C82_iter_linear_refuted`).
23. With more than 2^53 samples `iter_quantiles` can end before the largest sample: the share of the samples below it rounds to
    1.0 (`C84_refuted`: 2^60 samples of 4 and one of 8; no item shows 8).
24. `examples/cli.rs` adds up the counts of the rows in a `u64` that may overflow: a histogram of more than 2^64 samples (`len()` saturates) serializes, but `iter-quantiles` panics on it with overflow checks (`C85_overflow`).
25. The generator of numbers for the serialization tests never produces `u64::MAX`: the last of its ranges, unlike the others, ends before its largest number (`C86_never_max`).
26. The text of `V2DeflateSerializeError::IoError` is that of `InternalSerializationError`, so an I/O failure is reported as a failure of the underlying serialization, and different errors can have the same text (`C88_deflate_refuted`).
27. A refused `set_to` loses data: it calls `reset()` before `add()`, so when `add` returns an error the target is left empty (`C22_set_to_outcome`).
28. (C91) In a release build, leaking the guard returned by `Recorder::idle` and then dropping the recorder makes the recorder count wrap around to 2^64 - 1 (sync/mod.rs:64): the next `refresh` waits for 2^64 - 1 histograms and, with all recorders gone, never returns (`C91_stuck`). The checked build panics in `drop` instead (finding on C50).
29. `add` across layouts records the lowest value of each source class, so `max()` of the sum can be lower than `max()` of the source although nothing was lost: adding a histogram whose top class is 8 to 15 (`max()` 15) to an empty one with a finer layout gives `max()` 8 (`C19_max_lower`).
30. (C93) In a checked build a leaked idle guard can make the `drop` or `idle` of another, innocent recorder panic while it holds the lock; this poisons the mutex, and from then on every refresh panics and every drop of a recorder panics and loses its samples (`C93_poison_refuted`, `C93_poisoned`).
31. (C93) After a refresh that panicked and was caught (as after one that timed out) the answers still on their way are counted for the next refresh, which can therefore return without what was recorded before it began (`C93_refresh_refuted`).
32. **Changing the settings of a `SyncHistogram` after recorders were made can make `refresh` panic** (`C95_auto_off_panics`).  `DerefMut` lets the owner call `auto(false)` or put a smaller histogram in place; recorders keep the settings they were made with (`C95_settings`), so a recorder that resized sends values the merged histogram cannot hold, and `expect("TODO: failed to merge histogram")` (sync/mod.rs:311) panics; the samples are lost.
33. `==` compares neither `high()` nor the auto-resize setting: two equal histograms can differ after the same call, e.g. `saturating_record(100)` with `high` 31 and 20 (`C97_high_matters`). With these two settings equal, `==` is exactly indistinguishability (`C97_iff`).
34. (C99) In a release build the running sum printed by `iter-quantiles` (examples/cli.rs:160) wraps around for histograms with more than 2^64 samples: it goes down from one row to the next (`C99_overflow`). The checked build panics (C85_overflow).
35. With auto-resize on, `saturating_record(v)` for an uncovered `v` depends on the recordings made before: it does not resize but clamps to the present `high()`, which grows with any `record` above it. Swapping `saturating_record(100)` and `record(1000)` puts the first sample into a different class (`C100_saturating_refuted`). With auto-resize off all six recording methods commute, failures included.
36. A quantile of a sum of two histograms need not lie between the quantiles of the two: `value_at_quantile` rounds `q * n` to f64 before `ceil`, which lowers the rank by one for some `n` and not for others. With q the f64 next above 1/3, histograms of 12 samples (four of 1, eight of 9) and of 3 samples (one of 1, two of 9) both answer 1, but their sum answers 15 (`C102_refuted`); with 9 and 15 samples both answer 15 and the sum 1 (`C102_below_refuted`). It holds whenever rounding leaves the ranks alone, e.g. for binary fractions (`C102_dyadic`).
37. `iter_quantiles` and `value_at_quantile` can disagree about a quantile (C107_refuted, C107_refuted_below): with 55 samples of 5 and 45 of 9 and 15 ticks per half distance, the item for 0.55 shows 7, but `value_at_quantile(0.55)` is 15; with 5 and 17 samples and 11 ticks, the item for 5/22 (plus a rounding error) shows 15, but `value_at_quantile` gives 7. The comment in quantile.rs:43-44 knows of it. They are never further apart than two neighbouring classes with samples.
38. On an empty histogram the items of `iter_all` have the quantile NaN (0.0 / 0.0), while `quantile_below` answers 1.0 (C108_empty).
39. Recording the items of `iter_all` into an empty histogram gives a different `max()` and `min_nz()`: `record_n(value, 0)` updates them although nothing is counted (C110_all_refuted). With a unit above 1 and only zeros recorded, even the items of `iter_recorded` do not give an equal histogram back (C110_zero_refuted).
40. Values that `equivalent` calls the same are told apart by `max()` in the lowest class with a unit above 1 (0 against the others, C112_zero_matters) and in the highest class (`u64::MAX` against the others, C112_top_matters).
41. `subtract` (src/lib.rs:587-654) can leave `min_nz()` wrong: the statistics are computed anew only when a sample equivalent to `min()` or `max()` is taken away, and when zeros are recorded `min()` is 0. Taking away all samples of the class of `min_nz()` then goes unnoticed: `{0, 9}` plus `{5}` minus `{5}` reports `min_nz()` of the class of 5 and is not `==` to `{0, 9}` (C114_refuted).
42. Whether `iter::Sum` (src/lib.rs:1816-1831) panics depends on the order: a histogram holding `u64::MAX` can come first but cannot be added to another of the same configuration (`C119_top_matters`), since `add` refuses it (finding on C17).
