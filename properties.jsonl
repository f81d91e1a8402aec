{"id": "C01", "title": "Constructor accepts exactly the documented parameter set", "statement": "Histogram::new_with_bounds(low, high, sigfig) never panics, and returns Ok exactly when low >= 1, low <= u64::MAX/2, high >= 2*low, sigfig <= 5 and the lowest-value magnitude plus the significant-figure magnitude fits in 63 bits; otherwise it returns the error variant documented for the first violated condition.", "quantifier": "all u64 low, all u64 high, all u8 sigfig", "why_tests_cant": "2^136 parameter triples; the magnitude condition only bites near the top of the range", "anchors": ["src/lib.rs: Histogram::new_with_bounds, resize, buckets_to_cover, num_bins", "src/errors/mod.rs: CreationError"]}
{"id": "C02", "title": "A fresh histogram is empty and reports its configuration", "statement": "A histogram just constructed reports the low, high and sigfig it was given, len() == 0, is_empty(), count_at(v) == 0 for every v, min() == 0, max() == 0, min_nz() == u64::MAX; new_with_bounds/new_with_max leave auto-resize off and new turns it on.", "quantifier": "all accepted constructor arguments and all u64 query values", "why_tests_cant": "needs every query value on every configuration", "anchors": ["src/lib.rs: new, new_with_max, new_with_bounds, low, high, sigfig, len, min, max, min_nz, count_at"]}
{"id": "C03", "title": "Every value up to the configured maximum is recordable", "statement": "For a histogram with highest trackable value high, recording any value v <= high succeeds without resizing and without changing the number of distinct values; more precisely there is a coverage limit, at least high, such that v is storable without resize iff v is within that limit.", "quantifier": "all reachable histograms, all u64 values", "why_tests_cant": "boundary lies at a different power of two for each configuration", "anchors": ["src/lib.rs: index_for, mut_at, buckets_to_cover, resize, record_n_inner"]}
{"id": "C04", "title": "Configured precision holds for every value", "statement": "Every u64 value v lies in its equivalence class [lowest_equivalent(v), lowest_equivalent(v)+equivalent_range(v)-1]; the class width is the histogram's unit for all values below 2*10^sigfig units, and otherwise width * 10^sigfig <= v (quantization no coarser than 1 part in 10^sigfig).", "quantifier": "all reachable histograms (every sigfig 0..5 and unit magnitude), all u64 values", "why_tests_cant": "2^64 values per configuration; errors are most likely at power-of-two boundaries", "anchors": ["src/lib.rs: lowest_equivalent, equivalent_range, bucket_for, sub_bucket_for"]}
{"id": "C05", "title": "Equivalence is a partition of u64 into consecutive intervals", "statement": "equivalent(a,b) is an equivalence relation whose classes are exactly the intervals [lowest_equivalent(v), highest_equivalent(v)]; lowest_equivalent is idempotent and monotone; next_non_equivalent(v) is the smallest value above v not equivalent to it; equivalent values share their count_at. (At the very top of u64 the documented capping at u64::MAX applies.)", "quantifier": "all reachable histograms, all pairs of u64 values", "why_tests_cant": "quantifies over pairs of 64-bit values", "anchors": ["src/lib.rs: equivalent, lowest_equivalent, highest_equivalent, next_non_equivalent, equivalent_range"]}
{"id": "C06", "title": "Lowest discernible value is distinguishable from zero", "statement": "For a histogram created with lowest discernible value low, low (and every larger value) is not equivalent to 0.", "quantifier": "all accepted constructor arguments", "why_tests_cant": "depends on the floating-point log2 of every 63-bit low", "anchors": ["src/lib.rs: new_with_bounds (unit_magnitude), lowest_equivalent, equivalent"]}
{"id": "C07", "title": "median_equivalent stays inside the class", "statement": "median_equivalent(v) never panics and lies between lowest_equivalent(v) and highest_equivalent(v), at lowest_equivalent(v) + equivalent_range(v)/2.", "quantifier": "all reachable histograms, all u64 values", "why_tests_cant": "overflow is possible only at the top of the range", "anchors": ["src/lib.rs: median_equivalent"]}
{"id": "C08", "title": "Storage is bounded and determined by configuration", "statement": "distinct_values() equals (buckets()+1) * 2^(sigfig magnitude - 1), buckets() is the least number covering the highest trackable value and never exceeds 64, so every histogram has fewer than 2^23 slots and every index fits in 32 bits.", "quantifier": "all reachable histograms", "why_tests_cant": "must hold after any history of resizes, adds and deserializations", "anchors": ["src/lib.rs: distinct_values, buckets, num_bins, buckets_to_cover, resize"]}
{"id": "C09", "title": "Recording changes exactly one class", "statement": "After record_n(v, c) returns Ok, count_at(w) for every w equivalent to v is its old count plus c (saturating at the counter type's maximum), count_at(w) of every other in-range w is unchanged, and len() grows by c (saturating at u64::MAX).", "quantifier": "all reachable histograms, all values, all counts, all counter types, all query values", "why_tests_cant": "frame condition over all other slots", "anchors": ["src/lib.rs: record_n, record, record_n_inner, count_at, len"]}
{"id": "C10", "title": "Recording fails exactly when out of range with auto-resize off, and then changes nothing", "statement": "record_n(v, c) never panics; it returns Err(ValueOutOfRangeResizeDisabled) iff v is beyond the covered range and auto-resize is disabled, and in that case the histogram is left completely unchanged.", "quantifier": "all reachable histograms, all values and counts", "why_tests_cant": "needs every boundary and every field of the state", "anchors": ["src/lib.rs: record_n_inner"]}
{"id": "C11", "title": "Auto-resize never loses data and always admits the value", "statement": "With auto-resize enabled record_n(v, c) succeeds for every u64 v; afterwards every previously recorded class still has its count and the range covers v. If v was already covered, high() and the range are unchanged; otherwise high() becomes the largest value the grown array distinguishes (capped at u64::MAX - 1), so high() >= v unless v is u64::MAX.", "quantifier": "all reachable auto-resizing histograms, all u64 values", "why_tests_cant": "resize interacts with every earlier record", "anchors": ["src/lib.rs: record_n_inner, resize"]}
{"id": "C12", "title": "saturating_record never fails, never resizes, and clamps", "statement": "saturating_record_n(v, c) never panics, never changes high(), the number of distinct values or auto-resize, and behaves as record_n of v when v is covered and as record_n of high() otherwise.", "quantifier": "all reachable histograms, all values and counts", "why_tests_cant": "clamp paths depend on every configuration", "anchors": ["src/lib.rs: saturating_record, saturating_record_n, record_n_inner"]}
{"id": "C13", "title": "min, max and min_nz bound and reflect the recorded data", "statement": "In every reachable histogram every class with a non-zero count lies within [min(), max()] and non-zero-unit classes are at or above min_nz(). If the data was produced by recording (with non-zero counts) since creation or reset, max() is the highest equivalent of the largest value recorded, and min()/min_nz() the lowest equivalent of the smallest (non-zero) value recorded.", "quantifier": "all histories of records", "why_tests_cant": "min/max are cached and updated incrementally along the history", "anchors": ["src/lib.rs: min, max, min_nz, update_min_max, update_max, update_min, restat"]}
{"id": "C14", "title": "A histogram is the multiset of what was recorded (history refinement)", "statement": "After any sequence of successful record_n calls on a fresh histogram, count_at(v) is the sum of the counts recorded for values equivalent to v and len() is the sum of all counts (both saturating), independent of the order of the calls.", "quantifier": "all sequences of record operations of any length", "why_tests_cant": "unbounded histories and all their permutations", "anchors": ["src/lib.rs: record_n, count_at, len"]}
{"id": "C15", "title": "Coordinated-omission correction records exactly the missing series", "statement": "record_n_correct(v, c, interval) has the same effect as record_n(v,c) followed by record_n(v-interval,c), record_n(v-2*interval,c), ... for all such values >= interval; with interval 0 it is record_n(v,c); if the first record fails nothing changes; it always terminates.", "quantifier": "all reachable histograms, values, counts, intervals", "why_tests_cant": "series length is unbounded (v/interval)", "anchors": ["src/lib.rs: record_correct, record_n_correct"]}
{"id": "C16", "title": "len() accounts for all counts", "statement": "In every reachable histogram len() is at least the (saturated) sum of all slot counts, and is exactly that sum as long as no individual counter has saturated and no subtraction has failed.", "quantifier": "all histories of API calls", "why_tests_cant": "cached total maintained along arbitrary histories", "anchors": ["src/lib.rs: len, total_count, restat, subtract, add"]}
{"id": "C17", "title": "add is pointwise addition for equal configurations", "statement": "a.add(b) with the same configuration returns Ok; afterwards count_at(v) = old count_at(v) + b.count_at(v) (saturating) for all v and len() is the saturating sum, max()/min_nz() are the larger/smaller of the two; b is unchanged.", "quantifier": "all pairs of reachable histograms with equal bucket layout, all v", "why_tests_cant": "pairs of arbitrary states, three code paths", "anchors": ["src/lib.rs: add"]}
{"id": "C18", "title": "add fails only when the other's values exceed the range, and then changes nothing", "statement": "a.add(b) never panics; it fails with OtherAddendValueExceedsRange only if auto-resize is off and b has recorded a value a cannot store, and then a is unchanged.", "quantifier": "all pairs of reachable histograms", "why_tests_cant": "boundary between two independent configurations", "anchors": ["src/lib.rs: add"]}
{"id": "C19", "title": "add across different configurations moves every count to its class", "statement": "a.add(b) with differing bucket layouts, when it succeeds, adds each b slot's count to the a-class containing that slot's lowest value; the totals add up (saturating); no count is dropped or duplicated.", "quantifier": "all pairs of reachable histograms with different layouts", "why_tests_cant": "two independent layouts, all slots", "anchors": ["src/lib.rs: add, value_for, record_n"]}
{"id": "C20", "title": "subtract undoes add", "statement": "After a.add(b) succeeds without saturation, a.subtract(b) succeeds and restores every count and len() of a; in general a successful subtract yields count_at(v) = old - b's count for same-configuration histograms and len() the exact remaining sum.", "quantifier": "all pairs of reachable histograms", "why_tests_cant": "round-trip over arbitrary states incl. cached statistics", "anchors": ["src/lib.rs: subtract, add, restat"]}
{"id": "C21", "title": "subtract reports exactly the impossible subtractions", "statement": "a.subtract(b) never panics; for equal layouts, it returns SubtrahendCountExceedsMinuendCount iff some class of b has a larger count than in a, and SubtrahendValueExceedsMinuendRange iff b's max lies beyond a's range; an empty b always succeeds and changes nothing.", "quantifier": "all pairs of reachable histograms", "why_tests_cant": "error precedence and partial application over arbitrary states", "anchors": ["src/lib.rs: subtract", "src/errors/mod.rs: SubtractionError"]}
{"id": "C22", "title": "reset, clear and set_to", "statement": "reset() makes every count zero, len() zero, min()==0, min_nz()==u64::MAX while preserving configuration; clear() zeroes counts and len() but preserves statistics and configuration; set_to(b) with the same configuration makes every observable equal to b's.", "quantifier": "all reachable histograms, all query values", "why_tests_cant": "every slot and every cached statistic", "anchors": ["src/lib.rs: reset, clear, set_to"]}
{"id": "C23", "title": "clone_correct / add_correct equal record_n_correct over recorded classes", "statement": "add_correct(b, interval) has the effect of record_n_correct(highest_equivalent(class), count, interval) for each non-empty class of b in ascending order; clone_correct starts from an empty histogram of the same configuration, never panics, and with interval 0 reproduces all counts.", "quantifier": "all reachable histograms and intervals", "why_tests_cant": "unbounded iteration over all classes", "anchors": ["src/lib.rs: clone_correct, add_correct, set_to_corrected, iter_recorded"]}
{"id": "C24", "title": "count_between counts exactly the classes in range", "statement": "count_between(lo, hi) never panics and equals the saturating sum of counts over the classes from that of lo through that of hi (each clamped to the last class); count_between(v,v) is count_at(v); with lo > hi in distinct classes it is 0; over the whole range it is the sum of all counts.", "quantifier": "all reachable histograms, all pairs of u64", "why_tests_cant": "pairs of 64-bit values", "anchors": ["src/lib.rs: count_between, count_at, index_for_or_last"]}
{"id": "C25", "title": "value_at_quantile returns the class at the requested rank", "statement": "For every f64 quantile q (including NaN, infinities and out-of-range) value_at_quantile(q) does not panic when the sum of counts fits in u64; the returned value is the end of the first class whose cumulative count reaches max(1, ceil(fl(q*len))); the rank differs from the exact ceil(q*n) by at most one due to rounding for n <= 2^53; the result is monotone in q.", "quantifier": "all reachable histograms, all f64 quantiles", "why_tests_cant": "all floating-point inputs and arbitrary distributions", "anchors": ["src/lib.rs: value_at_quantile, value_at_percentile"]}
{"id": "C26", "title": "The 1.0 quantile is the maximum and the 0.0 quantile the minimum", "statement": "For a non-empty histogram, value_at_quantile(1.0) == max() and value_at_quantile(0.0) == min().", "quantifier": "all reachable non-empty histograms", "why_tests_cant": "depends on float conversion of every total and on cached statistics", "anchors": ["src/lib.rs: value_at_quantile, max, min"]}
{"id": "C27", "title": "quantile_below is a cumulative distribution function", "statement": "quantile_below(v) is in [0,1], is monotone in v, is 1.0 for every v >= max(), and equals fl(count of samples at or below v's class / len) whichever half of the array is summed; it never panics.", "quantifier": "all reachable histograms, all u64 values", "why_tests_cant": "two summation strategies must agree for every value", "anchors": ["src/lib.rs: quantile_below, percentile_below"]}
{"id": "C28", "title": "Equality is sound", "statement": "h == h2 is true exactly when low, sigfig, len, max, min_nz agree and every count of h equals h2's; h == h always holds; equality implies equal count_at for all values within range, independent of how the histograms were produced.", "quantifier": "all pairs of reachable histograms", "why_tests_cant": "pairs of arbitrary histories", "anchors": ["src/lib.rs: PartialEq for Histogram"]}
{"id": "C29", "title": "iter_recorded visits every recorded class exactly once", "statement": "iter_recorded() terminates without panicking and yields, in ascending order, exactly the classes with non-zero count, each once, with value_iterated_to the class's highest value, count_at_value and count_since_last_iteration equal to its count.", "quantifier": "all reachable histograms", "why_tests_cant": "arbitrary distributions and cached max index", "anchors": ["src/iterators/mod.rs: HistogramIterator::next", "src/iterators/recorded.rs", "src/lib.rs: iter_recorded"]}
{"id": "C30", "title": "iter_all visits every class exactly once", "statement": "iter_all() terminates without panicking and yields every class of the histogram in order exactly once with its count; the counts since last iteration sum to the total of the counts.", "quantifier": "all reachable histograms", "why_tests_cant": "arbitrary distributions; the last-picked logic depends on the max index", "anchors": ["src/iterators/mod.rs", "src/iterators/all.rs"]}
{"id": "C31", "title": "iter_linear steps cover all samples", "statement": "iter_linear(step) yields value_iterated_to = step-1, 2*step-1, 3*step-1, ... ; the counts since last iteration sum to the sum of all counts; it terminates and does not panic when no reporting level exceeds u64::MAX.", "quantifier": "all reachable histograms, all step sizes", "why_tests_cant": "arbitrary step/width ratios", "anchors": ["src/iterators/linear.rs", "src/iterators/mod.rs"]}
{"id": "C32", "title": "iter_log steps cover all samples", "statement": "iter_log(start, exp) yields value_iterated_to that follow the start*exp^k schedule (f64, truncated, minus one), and the counts since last iteration sum to the sum of all counts of the visited prefix, which includes every recorded class.", "quantifier": "all reachable histograms, start values and bases", "why_tests_cant": "arbitrary floating-point growth", "anchors": ["src/iterators/log.rs", "src/iterators/mod.rs"]}
{"id": "C33", "title": "iter_quantiles ends at quantile 1.0 and never goes backwards", "statement": "iter_quantiles(t) yields values and quantile_iterated_to in non-decreasing order, each item's value quantile at least the quantile iterated to, and the final item has quantile_iterated_to 1.0; the number of items is finite.", "quantifier": "all reachable non-empty histograms, all tick counts", "why_tests_cant": "floating-point stepping over arbitrary distributions", "anchors": ["src/iterators/quantile.rs", "src/iterators/mod.rs"]}
{"id": "C34", "title": "Variable-length integers round-trip", "statement": "For every u64 the LEB128-64b9B writer emits 1..9 bytes and both readers (slice and stream) decode them to the same number consuming exactly those bytes, whatever follows; the stream reader returns an error on every strict prefix; the two readers agree on every byte string of length >= 9.", "quantifier": "all u64 values and all byte strings", "why_tests_cant": "2^64 values; arbitrary byte strings", "anchors": ["src/serialization/v2_serializer.rs: varint_write", "src/serialization/deserializer.rs: varint_read, varint_read_slice"]}
{"id": "C35", "title": "Zig-zag coding is a bijection", "statement": "zig_zag_decode(zig_zag_encode(n)) == n for every i64, and zig_zag_encode(zig_zag_decode(u)) == u for every u64; non-negative n map to 2n and negative n to -2n-1.", "quantifier": "all i64 / u64 values", "why_tests_cant": "2^64 values", "anchors": ["src/serialization/v2_serializer.rs: zig_zag_encode", "src/serialization/deserializer.rs: zig_zag_decode"]}
{"id": "C36", "title": "V2 serialization round-trips", "statement": "For every histogram whose statistics are exact, deserialize(serialize(h)) succeeds and yields a histogram equal to h (== in both directions), with the same low, high, sigfig and number of distinct values and the same count_at for all values.", "quantifier": "all reachable histograms with serializable counts", "why_tests_cant": "arbitrary contents; zero-run compression; two decode loops", "anchors": ["src/serialization/v2_serializer.rs: serialize, encode_counts", "src/serialization/deserializer.rs: deser_v2, on_decoded_num"]}
{"id": "C37", "title": "Deserializing arbitrary bytes never panics", "statement": "deserialize applied to any byte string returns Ok or an error; it never panics or loops.", "quantifier": "all byte strings", "why_tests_cant": "hostile input space is unbounded", "anchors": ["src/serialization/deserializer.rs: Deserializer::deserialize, deser_v2, on_decoded_num"]}
{"id": "C38", "title": "A successfully deserialized histogram is valid", "statement": "Whatever bytes it was read from, a histogram returned by deserialize satisfies all validity guarantees of constructed histograms (configuration accepted by the constructor, all non-zero classes within [min,max], len() the saturated sum of counts), and low/high/sigfig equal the header fields.", "quantifier": "all byte strings", "why_tests_cant": "hostile input space is unbounded", "anchors": ["src/serialization/deserializer.rs: deser_v2", "src/lib.rs: RestatState"]}
{"id": "C39", "title": "Serialization is memory-safe and reports its length", "statement": "serialize never reads a count outside the counts array (unchecked access), never writes past its reserved buffer, and on success returns exactly the number of bytes written, which is at most 40 + 9*(slots up to max).", "quantifier": "all reachable histograms", "why_tests_cant": "unsafe get_unchecked / set_len guarded only by an invariant on the cached max", "anchors": ["src/serialization/v2_serializer.rs: serialize, encode_counts, max_encoded_size"]}
{"id": "C40", "title": "Serialized histograms are self-delimiting", "statement": "Deserializing from a stream holding serialize(h1) ++ serialize(h2) ++ ... yields each histogram in order and leaves exactly the remaining bytes; every strict prefix of a serialized histogram yields an error.", "quantifier": "all sequences of histograms, all truncation points", "why_tests_cant": "every truncation point of every encoding", "anchors": ["src/serialization/deserializer.rs: deser_v2", "src/serialization/v2_serializer.rs"]}
{"id": "C41", "title": "Serialization fails exactly on counts beyond i64::MAX", "statement": "serialize to an in-memory writer returns CountNotSerializable iff some count up to the max class exceeds i64::MAX; otherwise it succeeds.", "quantifier": "all reachable histograms", "why_tests_cant": "arbitrary contents", "anchors": ["src/serialization/v2_serializer.rs: encode_counts"]}
{"id": "C42", "title": "V2+DEFLATE round-trips given a correct zlib", "statement": "If zlib decompression inverts compression, deserialize(serialize_deflate(h)) yields the same result as the plain V2 round trip, and the declared length equals the compressed payload length.", "quantifier": "all reachable histograms, all lawful compressors", "why_tests_cant": "arbitrary contents and compressors", "anchors": ["src/serialization/v2_deflate_serializer.rs", "src/serialization/deserializer.rs: deser_v2_compressed"]}
{"id": "C43", "title": "An interval log parses back to what was written", "statement": "For a log produced by the writer (comments, StartTime/BaseTime headers, histograms with optional tags), the parser yields exactly the written entries in order: same tags, same timestamps to millisecond text precision, same base64 payload; ordinary comments yield nothing.", "quantifier": "all sequences of write operations", "why_tests_cant": "unbounded logs; separators inside data", "anchors": ["src/serialization/interval_log/mod.rs: InternalLogWriter, IntervalLogIterator, interval_hist, start_time, base_time"]}
{"id": "C44", "title": "The log parser is total and makes progress", "statement": "For every byte string the iterator yields finitely many items, never panics, yields at most one error, and after an error or the end it yields nothing more; the reported offset is the position where parsing stopped.", "quantifier": "all byte strings", "why_tests_cant": "hostile input space is unbounded", "anchors": ["src/serialization/interval_log/mod.rs: IntervalLogIterator::next, log_entry, ignored_line"]}
{"id": "C45", "title": "Tags are exactly the separator-free strings", "statement": "Tag::new(s) returns Some iff s has no ',', '\\r', '\\n' or ' ', and then as_str() is s; a tag written to a log is read back unchanged.", "quantifier": "all strings", "why_tests_cant": "all strings", "anchors": ["src/serialization/interval_log/mod.rs: Tag, tag_parser"]}
{"id": "C46", "title": "Timestamps in logs parse exactly", "statement": "Text S.F (decimal digits, S fits u64) parses to S seconds plus F as a decimal fraction truncated to nanoseconds, for any number of fraction digits, without overflow.", "quantifier": "all digit strings", "why_tests_cant": "all lengths of digit strings", "anchors": ["src/serialization/interval_log/mod.rs: fract_sec_duration, fract_sec_tuple"]}
{"id": "C47", "title": "Concurrent recording never loses or duplicates samples", "statement": "In every interleaving of recorders (record, clone, drop, idle, reactivate) and reader refreshes (with or without timeout), every recorded sample is at any time in exactly one place: the merged histogram, the channel, or the local histogram of one live recorder; once all recorders are dropped and a refresh completes, merged holds every sample exactly once.", "quantifier": "all interleavings of any number of threads and operations", "why_tests_cant": "schedules", "anchors": ["src/sync/mod.rs: Recorder, SyncHistogram, refresh_inner"]}
{"id": "C48", "title": "refresh incorporates all samples recorded before it", "statement": "When refresh() returns, every sample recorded by any recorder before the call is visible in the histogram.", "quantifier": "all interleavings", "why_tests_cant": "schedules", "anchors": ["src/sync/mod.rs: refresh, refresh_inner, with_hist, clone, drop"]}
{"id": "C49", "title": "refresh is never held up by idle or dropped recorders", "statement": "refresh() never waits for a recorder that was idle or dropped: it can always complete once each active recorder has made one more write, been idled or dropped.", "quantifier": "all interleavings", "why_tests_cant": "schedules", "anchors": ["src/sync/mod.rs: idle, into_idle, deactivate, reactivate, drop, refresh_inner"]}
{"id": "C50", "title": "The recorder count tracks the active recorders", "statement": "The shared recorder count always equals the number of recorders that exist and are not idle; it never underflows.", "quantifier": "all interleavings", "why_tests_cant": "schedules", "anchors": ["src/sync/mod.rs: Critical, clone, drop, deactivate, reactivate, recorder"]}
{"id": "C51", "title": "No panics on the safe API", "statement": "Starting from any accepted constructor call, any finite sequence of the Result-returning API calls (record*, saturating_record*, add, subtract, set_to, reset, clear, auto, clone_correct, all integer queries) never panics and never overflows an arithmetic operation.", "quantifier": "all finite histories of API calls", "why_tests_cant": "unbounded histories", "anchors": ["src/lib.rs: all of impl Histogram"]}
{"id": "C52", "title": "mean lies within the recorded range up to rounding", "statement": "mean() of a non-empty histogram is within a relative rounding error of the exact count-weighted average of class medians, hence between min() and max() up to rounding; it is 0 for an empty histogram.", "quantifier": "all reachable histograms", "why_tests_cant": "floating-point summation over arbitrary distributions", "anchors": ["src/lib.rs: mean, median_equivalent"]}
{"id": "C53", "title": "Summing histograms is order-independent", "statement": "For histograms of equal configuration, adding them in any order or grouping (including via iter::Sum) gives the same counts, len, max and min_nz.", "quantifier": "all finite collections of histograms and all their permutations", "why_tests_cant": "all permutations", "anchors": ["src/lib.rs: add, AddAssign, iter::Sum"]}
{"id": "C54", "title": "Base64 payload text is line-safe and decodable", "statement": "The encoded histogram text in a log consists only of base64 alphabet characters, so it never contains a separator, and decoding it gives back the serialized bytes.", "quantifier": "all byte strings", "why_tests_cant": "all payloads", "anchors": ["src/serialization/interval_log/mod.rs: write_histogram"]}
{"id": "C55", "title": "value_at_quantile and quantile_below are inverse", "statement": "For a class that holds samples, value_at_quantile(quantile_below(v)) is highest_equivalent(v) for every v of the class; and quantile_below(value_at_quantile(q)) is at least q, up to rounding.", "quantifier": "all reachable histograms of at most 2^53 samples with unsaturated counters, all values and all quantiles in [0, 1]", "why_tests_cant": "depends on the rounding of every quotient count/total", "anchors": ["src/lib.rs: value_at_quantile, quantile_below"]}
{"id": "C56", "title": "Percentile forms agree with the quantile forms", "statement": "percentile_below is between 0 and 100, monotone in the value, and 100 from max() on; value_at_percentile never panics and gives the class whose rank is within one of p/100 of the samples.", "quantifier": "all reachable histograms, all values and all f64 percentiles including NaN and infinities", "why_tests_cant": "all doubles; rounding of p/100 and of the product", "anchors": ["src/lib.rs: value_at_percentile, percentile_below"]}
{"id": "C57", "title": "Operators do what the methods do and panic exactly on their errors", "statement": "h += v, h += s, h + s, h -= s, h - s give the result of record, add and subtract, and panic exactly in the cases where these return an error: value not covered without auto-resize; largest value of s not admitted; more samples of a class subtracted than present.", "quantifier": "all reachable histograms and all values", "why_tests_cant": "all pairs of histograms", "anchors": ["src/lib.rs:1787-1866: AddAssign, Add, SubAssign, Sub"]}
{"id": "C58", "title": "Every iterator is fused, returns, and reports every sample once", "statement": "Whatever the picking strategy: next() always returns and panics only if the strategy does; after None it only returns None; the quantile of an item is the sum of count_since_last_iteration so far over len(); these sums never exceed the number of samples and equal it once the slot of max() was picked.", "quantifier": "all reachable histograms, all PickyIterator implementations, all numbers of calls", "why_tests_cant": "quantifies over implementations of a trait", "anchors": ["src/iterators/mod.rs:164-255: HistogramIterator::next"]}
{"id": "C59", "title": "The bytes written are exactly the V2 format", "statement": "Serializing writes the 40 byte header (cookie, payload length, 0, significant digits, lowest and highest value, 1.0 as double; all big endian), then for the classes from 0 up to the class of max(): each count as ZigZag LEB128 number, each maximal run of zero counts as its negated length. Independent of the previous content of the buffers. The number returned is the number of bytes.", "quantifier": "all reachable histograms with counts below 2^63", "why_tests_cant": "interoperability with other implementations needs the bytes of every histogram, not only the round trip", "anchors": ["src/serialization/v2_serializer.rs:70-114: serialize", "src/serialization/v2_serializer.rs:135-276: encode_counts, varint_write, zig_zag_encode"]}
{"id": "C60", "title": "The encoding is canonical and injective", "statement": "Histograms with the same settings, the same counts and the same class of max() serialize to the same bytes whatever the counter type; equal bytes mean equal settings and equal counts; serializing what was read back gives the same bytes.", "quantifier": "all pairs of reachable histograms of any counter types", "why_tests_cant": "all pairs", "anchors": ["src/serialization/v2_serializer.rs:70-276", "src/serialization/deserializer.rs:137-370"]}
{"id": "C61", "title": "Reading into a counter type fails exactly if a count does not fit", "statement": "Deserializing the bytes of a histogram as counter type T' succeeds if all counts are at most T'::MAX, and otherwise gives Err(UnsuitableCounterType); whatever follows in the stream.", "quantifier": "all reachable histograms, all pairs of counter types, all continuations of the stream", "why_tests_cant": "all histograms", "anchors": ["src/serialization/deserializer.rs:324-370: DecodeLoopState::on_decoded_num"]}
{"id": "C62", "title": "Deserializing does not depend on the reader or on previous calls", "statement": "Whatever the portions in which a reader delivers its bytes, whether it interrupts, whether it ends or fails afterwards, and whatever previous calls left in the deserializer's buffer: deserialize gives the same result as on a slice of these bytes; after a histogram that is not compressed exactly its bytes have been consumed.", "quantifier": "all implementations of Read that keep the contract of std, all byte sequences, all contents of the payload buffer", "why_tests_cant": "quantifies over implementations of Read", "anchors": ["src/serialization/deserializer.rs:82-200: Deserializer, deserialize, deser_v2_compressed, deser_v2"]}
{"id": "C63", "title": "What arrives at a writer", "statement": "Whatever the portions in which a writer takes bytes, and the interruptions: the serializers and the interval log writer return Ok only if the writer has taken all bytes an in-memory writer would get, and IoError only if it has taken a proper prefix of them; the serializers write nothing before any other error.", "quantifier": "all implementations of Write that keep the contract of std, all histograms, all logs", "why_tests_cant": "quantifies over implementations of Write and the points where they fail", "anchors": ["src/serialization/v2_serializer.rs:70-114: serialize", "src/serialization/v2_deflate_serializer.rs:78-132: serialize", "src/serialization/interval_log/mod.rs:305-346: begin_log_with", "src/serialization/interval_log/mod.rs:454-498: write_comment, write_histogram"]}
{"id": "C64", "title": "Standard deviation", "statement": "stdev() never panics and is a finite non-negative number; it is 0 without samples; unless the counts add up to more than len() it differs from the exact population standard deviation of the class medians weighted with the counts by at most 2^-26 times the largest median with samples, so it does not exceed max() by more than that, and is that close to 0 when all samples are in one class.", "quantifier": "all reachable histograms of every counter type", "why_tests_cant": "rounding error bound over all counts, not a tolerance on an example; cancellation and overflow only show for extreme counts and values", "anchors": ["src/lib.rs:1307-1319: stdev", "src/lib.rs:1293-1304: mean"]}
{"id": "C65", "title": "Intervals between resets share out the samples, also with outdated loads of the phase", "statement": "While recorders record concurrently, the owner of the SyncHistogram may record into the merged histogram and reset it between refreshes, and a recorder's load of the phase may return any earlier value not older than the one it saw last. Still every sample is at any time in exactly one place: in the merged histogram, in exactly one of the intervals already taken out by a reset, in the channel, or in the local histogram of one live recorder; once all recorders are dropped and a refresh has returned, merged histogram and intervals together hold every sample exactly once.", "quantifier": "all interleavings of any number of threads, all choices of outdated loads, all owner actions", "why_tests_cant": "schedules and memory orders cannot be enumerated or forced", "anchors": ["src/sync/mod.rs: with_hist, deactivate, reactivate, refresh_inner, DerefMut", "src/lib.rs: reset"]}
{"id": "C66", "title": "Recorders never block on writes, never panic, never deadlock", "statement": "A write through a recorder returns after at most two shared accesses of its own thread whatever the others do: while another thread holds the lock, while a refresh waits, and after the SyncHistogram has been dropped. Whenever the lock is held, its holder can release it within two steps of its own. No thread panics as long as no value equivalent to u64::MAX is recorded (unless the histogram resizes).", "quantifier": "all reachable states of any number of threads", "why_tests_cant": "schedules", "anchors": ["src/sync/mod.rs: with_hist, drop, deactivate, reactivate, Critical"]}
{"id": "C67", "title": "Deserialize reads exactly the V2 grammar", "statement": "deserialize accepts an uncompressed message exactly if the bytes are a V2 header whose settings the constructor accepts followed by a payload of the declared length that is a sequence of ZigZag LEB128 numbers of at most nine bytes each, every number at most the counter's maximum and above i64::MIN, no non-zero count falling past the last slot, and the total run length fitting a usize. The histogram then has the settings of the header, and its counts are those the numbers mean (a negative number is a run of zeros), even for encodings no serializer writes: superfluous continuation bytes, split or spelled-out runs, runs past the end. The grammar is unambiguous. A compressed message is accepted exactly if its inflated payload is an accepted uncompressed message, with the same histogram.", "quantifier": "all byte strings, counter types, build profiles and zlib implementations", "why_tests_cant": "The set of accepted byte strings is infinite; tests decode what the crate's own serializer wrote and a few hand-made messages, and fuzzing only shows the absence of crashes, not that the decoded counts are right.", "anchors": ["src/serialization/deserializer.rs:104-205", "src/serialization/deserializer.rs:207-374"]}
{"id": "C68", "title": "An interval log is exactly the text its calls stand for", "statement": "If building a log writer and all calls on it succeed, the bytes written are: the comments given to the builder in the order they were added, with # in front of every line of each; then the StartTime header and the BaseTime header, each only if set, with the time of the last call; then the MaxValueDivisor line with the divisor set last, unless it is 1; then, in order, the text of every call: a comment with # in front of every line, or one line with the tag (if any), start, duration, maximum divided by the divisor and the base64 form of the serialized histogram. Times and numbers have exactly three decimals, no superfluous leading zeros, and are within half a millisecond (plus the precision of f64) of the value; a time before the epoch has a minus sign. The writer succeeds whenever every histogram passed serializes.", "quantifier": "all sequences of calls on the builder, all sequences of calls on the writer, all counter types, all reachable histograms, every serializer, every tie rule of the formatter", "why_tests_cant": "the tests compare the text of a few fixed logs; the order of comments against repeated settings, multi-line comments and the precision for all durations need a proof over all call sequences", "anchors": ["src/serialization/interval_log/mod.rs:237-343", "src/serialization/interval_log/mod.rs:345-498", "src/serialization/interval_log/mod.rs:696-707"]}
{"id": "C69", "title": "The log parser reads exactly the line grammar", "statement": "Every input splits into lines of the log grammar (a StartTime or BaseTime header, an interval with or without a tag, or a skipped line: a # line that is no header, or a line starting with the legend) and a rest that does not begin with such a line. The iterator yields the entries of these lines in order and then, if the rest is not empty, exactly one error at the offset of the rest, and then nothing. The splitting is unambiguous: no input begins with two different lines, and a line is not two different entries.", "quantifier": "all byte strings, every lawful model of nom's double parser", "why_tests_cant": "the set of accepted texts is infinite; tests show a few accepted and refused lines and cannot show that nothing else is accepted or that no accepted text has two readings", "anchors": ["src/serialization/interval_log/mod.rs:500-640", "src/serialization/interval_log/mod.rs:641-819"]}
{"id": "C70", "title": "Which error a refused message gives", "statement": "deserialize checks a message in this order and returns the error of the first check that fails: the cookie (InvalidCookie), the normalizing offset is zero (UnsupportedFeature), the number of digits fits a u8 (InvalidParameters), the conversion ratio is 1.0 (UnsupportedFeature), the constructor accepts the settings (InvalidParameters), the payload is there; a message too short for a check gives IoError. If all hold, the first number of the payload that cannot be stored decides: IoError if it is cut off, UnsuitableCounterType if it exceeds the counter type, EncodedArrayTooLong if it is a positive count past the last slot, UsizeTypeTooSmall if it moves the position past usize or is -2^63 (in a build with overflow checks the latter panics, and this is the only panic). A compressed message gives the outcome of what it inflates to, and IoError if it ends before its length.", "quantifier": "all byte strings, counter types, build profiles and zlib implementations", "why_tests_cant": "the tests show one message for a few of the errors; that no other message gives them, and which error wins when several things are wrong, quantifies over all byte strings", "anchors": ["src/serialization/deserializer.rs:104-115", "src/serialization/deserializer.rs:117-205", "src/serialization/deserializer.rs:338-373"]}
{"id": "C71", "title": "What a histogram holds", "statement": "Say that a histogram holds a list of samples when every covered value's count is the number of samples equivalent to it and len() is the number of all. An empty histogram holds no samples; successful recordings (plain or with coordinated-omission correction, resizing or not) append the samples recorded, add appends the samples of the source and subtract takes them away (when the source's classes lie within those of the receiver), and a histogram read back from its serialized form, into any counter type that is large enough, holds the same samples - as long as no counter and no total overflows.", "quantifier": "all reachable histograms, sample lists, values, counts, intervals and counter types", "why_tests_cant": "the relation has to survive every sequence of operations on every configuration", "anchors": ["src/lib.rs:462-586", "src/lib.rs:587-660", "src/lib.rs:840-960", "src/serialization/v2_serializer.rs:40-140", "src/serialization/deserializer.rs:117-205"]}
{"id": "C72", "title": "Quantiles are those of the samples, with the precision configured", "statement": "For a histogram holding at most 2^53 samples and any f64 quantile, value_at_quantile answers a value equivalent to the sample whose rank (in the sorted list of samples) the quantile asks for: less than the unit away from it, or at most one part in 10^sigfig of it; and it is not below the sample (for the quantile 0.0: not above it), except that u64::MAX is reported as u64::MAX-1. The rank is the exact ceil(q*n), or the one before it because of f64 rounding. In particular this holds from the constructor on, for every list of samples up to high.", "quantifier": "all configurations, sample lists and f64 quantiles", "why_tests_cant": "tests compare the answers on a few data sets with hand-computed values", "anchors": ["src/lib.rs:1340-1390", "src/lib.rs:868-872", "src/lib.rs:15-25"]}
{"id": "C73", "title": "Counting queries count samples", "statement": "count_between(lo, hi) with lo covered and lo <= hi is the number of samples between lo and hi, including those equivalent to either; quantile_below(v) is, up to one rounding, the share of samples that are at most v or equivalent to v, with up to 2^53 samples.", "quantifier": "all reachable histograms holding samples, all values", "why_tests_cant": "quantifies over all sample lists and both bounds", "anchors": ["src/lib.rs:1391-1425", "src/lib.rs:1435-1455"]}
{"id": "C74", "title": "The mean is the mean of the samples, with the precision configured", "statement": "For a histogram holding samples with mean m, mean() differs from m by at most half a unit plus half of one part in 10^sigfig of m, and a rounding error of 2^-28 relative.", "quantifier": "all reachable histograms and non-empty sample lists", "why_tests_cant": "a worst case over all inputs: the error bound combines the layout with the accumulated f64 rounding", "anchors": ["src/lib.rs:1293-1304"]}
{"id": "C75", "title": "The standard deviation is that of the samples, with the precision configured", "statement": "For a histogram holding samples of at most m, stdev() differs from the population standard deviation of the samples by at most half a unit plus half of one part in 10^sigfig of m, and a rounding error of 2^-26 relative to that bound and m.", "quantifier": "all reachable histograms and non-empty sample lists", "why_tests_cant": "a worst case over all inputs: the error bound combines the layout with the accumulated f64 rounding", "anchors": ["src/lib.rs:1307-1325"]}
{"id": "C76", "title": "Narrow pointers change nothing but what does not fit", "statement": "On a target of any pointer width, an operation does exactly what it does on a 64-bit target, except: the constructor returns UsizeTypeTooSmall if the slots are more than usize::MAX; recording, recording with correction and adding return ResizeFailedUsizeTypeTooSmall and leave the histogram unchanged if the enlarged array would be longer than usize::MAX; the serializer returns UsizeTypeTooSmall if 40 + 9 per class up to that of max() exceeds usize::MAX; the deserializer returns UsizeTypeTooSmall or InvalidParameters if payload bytes, slots or counts exceed it; and any of them panics if memory it needs cannot be allocated. Every histogram that can be produced on a target can be produced on a 64-bit one.", "quantifier": "all pointer widths up to 64, all allocators, all reachable histograms and arguments, all byte strings", "why_tests_cant": "tests run on one target, in practice one with 64-bit pointers", "anchors": ["src/lib.rs:139-150", "src/lib.rs:358-397", "src/lib.rs:885-929", "src/lib.rs:1646-1670", "src/serialization/v2_serializer.rs:117-130", "src/serialization/deserializer.rs:137-200"]}
{"id": "C77", "title": "32-bit targets have no size problems", "statement": "On a target with pointers of 32 bits or more on which 256 MiB can be allocated, the constructors, all operations on all histograms, the serializer, and the deserializer on everything a serializer wrote, give the same results as on a 64-bit target (documented: all possible histograms fit within a 32-bit index).", "quantifier": "all such targets, all reachable histograms, all arguments", "why_tests_cant": "needs the largest array over all configurations and values, and a 32-bit machine", "anchors": ["src/lib.rs:149-150"]}
{"id": "C78", "title": "Histograms that do not fit are an error", "statement": "On a 16-bit target creating or enlarging a histogram that does not fit fails with a suitable error such as UsizeTypeTooSmall (documented), not with a panic.", "quantifier": "all pointer widths, all settings, all reachable histograms", "why_tests_cant": "no test runs on such a target", "anchors": ["src/lib.rs:139-147", "src/lib.rs:1646-1670"]}
{"id": "C79", "title": "Which messages are accepted does not depend on the target", "statement": "On targets with pointers of 32 bits or more the deserializer answers as on a 64-bit target, with the same histogram or the same error.", "quantifier": "all such targets, all byte strings, all counter types and build profiles", "why_tests_cant": "the differing messages have runs of 2^32 zeros or announce gigabytes of payload", "anchors": ["src/serialization/deserializer.rs:137-200", "src/serialization/deserializer.rs:338-373"]}
{"id": "C80", "title": "Exactly which API calls panic", "statement": "In a program that makes any finite number of calls of the whole single-threaded API (all constructors, recording, merging, integer and floating-point queries, all iterators driven to their end, serialization, deserialization, with overflow checks on), the calls that panic are exactly these: value_at_quantile and value_at_percentile when the counts, added up in ascending order until they reach the rank, exceed u64::MAX; iter_linear with step 0, or when the level after the last one exceeds u64::MAX, or when the last level lies in the class of u64::MAX of a histogram with 0 significant digits; iter_log with start 0 or a base that is not above 1; iter_quantiles with 0 ticks; and deserialization of a message whose first number that cannot be stored is -2^63. Every other call returns, and every iteration ends.", "quantifier": "all reachable histograms, all arguments, all programs of calls", "why_tests_cant": "the panicking states need counts near 2^64 or levels near 2^64, and absence of panics is a statement about all histories", "anchors": ["src/lib.rs:1107-1147", "src/lib.rs:1293-1435", "src/iterators/linear.rs:42-69", "src/iterators/quantile.rs:38-158", "src/serialization/deserializer.rs:82-253"]}
{"id": "C81", "title": "Release builds behave like debug builds that do not panic", "statement": "A program that calls the API, where each call may depend on all histograms it holds and all answers and errors returned so far, leaves the same histograms and gets the same answers in a release build (wrapping arithmetic, shift amounts reduced modulo the width, no debug assertions) as in a debug build, up to the first call on which the debug build panics; these calls are the ones of C80. A program using only the calls of C51 behaves identically in both builds and never panics. Deserialization never panics in a release build.", "quantifier": "all programs, all counter types, all inputs, all byte strings, all zlib and log2 implementations", "why_tests_cant": "tests run in one build profile at a time and compare single calls; the claim relates two semantics of the whole crate for every program", "anchors": ["Cargo.toml:48-49", "src/lib.rs:352-700", "src/lib.rs:1107-1420", "src/serialization/v2_serializer.rs:82-140", "src/serialization/deserializer.rs:100-200"]}
{"id": "C82", "title": "What a release build does where a debug build panics", "statement": "In a release build value_at_quantile never panics: it adds the counts modulo 2^64 and answers for the first class at whose end this total is at least the rank, or 0 if there is none, so that with counts adding up to more than u64::MAX the 1.0 quantile can be below the minimum. iter_linear wraps its level: with one sample at 2^63 and a step of 2^63 + 1 it yields 2^59 items at levels 2^63, 1, 2^63 + 2, 3, ... where one item is due. For any other histogram and step too it never panics and ends, after fewer than 2^65 items, whose levels are the multiples of the step less one modulo 2^64 and whose counts add up to all samples (if these are at most u64::MAX). Zero steps, starts and ticks and bases not above 1 still panic.", "quantifier": "all reachable histograms, quantiles and steps; witnesses for the wrong answers", "why_tests_cant": "the run of iter_linear takes 2^59 steps; value_at_quantile is characterised for all contents", "anchors": ["src/lib.rs:1340-1369", "src/iterators/linear.rs:16-69", "src/iterators/mod.rs:170-255"]}
{"id": "C83", "title": "The maximum read from a log", "statement": "For a log written without an error (with a finite divisor, and comments and times a log can carry), the parser yields after the headers one entry for each call of write_histogram, in order, and IntervalLogHistogram::max of each answers max() of the histogram divided by the divisor, to half a thousandth and the precision of f64; without a divisor it answers exactly max() converted to f64.", "quantifier": "all sequences of calls, all reachable histograms, all finite divisors (of either sign), every tie rule of the formatter", "why_tests_cant": "three conversions (u64 to f64, division, decimal text and back) each round; exactness must hold for all 2^64 maxima", "anchors": ["src/serialization/interval_log/mod.rs:462-497: write_histogram", "src/serialization/interval_log/mod.rs:567-573: max", "src/serialization/interval_log/mod.rs:739-762: interval_hist"]}
{"id": "C84", "title": "Iterators report the samples", "statement": "For a histogram holding a list of samples: the counts since the last iteration, added up over the items of any of the five iterators up to one that shows the value v, are the number of samples not above v (those equivalent to v included); the item's quantile is their share of all samples, its count at the value the number of samples equivalent to v. Every item of iter_recorded and iter_quantiles shows a value equivalent to a sample, iter_recorded shows every sample, iter_all every covered value; the last item of iter_quantiles is for quantile 1 and shows the largest sample, and its running total is the number of samples.", "quantifier": "all reachable histograms, all sample lists they hold, all step sizes, bases and tick counts", "why_tests_cant": "the totals must telescope over every sequence of levels and every distribution of samples; the end of iter_quantiles depends on rounding for more than 2^53 samples", "anchors": ["src/iterators/mod.rs", "src/iterators/quantile.rs", "src/iterators/recorded.rs", "src/iterators/all.rs", "src/iterators/linear.rs", "src/iterators/log.rs"]}
{"id": "C85", "title": "The command line tool tabulates the numbers it was given", "statement": "For an input listing up to 2^53 numbers, one per line (LF or CR LF, the last line end optional, a plus sign and leading zeros allowed), all in range or with auto-resize on, `serialize` succeeds, and `iter-quantiles` on its output (compressed or not) prints a table in which every row shows a value equivalent to one of the numbers, the running sum is how many numbers are not above it, the quantile is their share and not below the quantile iterated to, rows ascend, exactly the last row is for quantile 1 (inverse infinite), shows the largest number and counts all; and mean, standard deviation, maximum and count are those of the numbers within the precision configured. `serialize` succeeds for no other input; a number out of range is ValueOutOfRangeResizeDisabled.", "quantifier": "all byte strings as input, all configurations the constructor accepts, all nonzero tick counts, any lawful zlib", "why_tests_cant": "end-to-end over unbounded inputs; composes line splitting, number parsing, recording, the wire format, deflate, the iterator and the statistics", "anchors": ["examples/cli.rs:84-97", "examples/cli.rs:113-134", "examples/cli.rs:138-225"]}
{"id": "C86", "title": "How many bytes a number takes", "statement": "For each length from 1 to 9, smallest_number_in_n_byte_varint and largest_number_in_n_byte_varint are the ends of the range of the u64 values which varint_write encodes in exactly that many bytes; any other length is refused by an assertion. The generator made from these ranges never panics when made, yields for each length only numbers of that encoded length, and every u64 but u64::MAX can come out.", "quantifier": "all lengths, all u64 values, all choices of the random source", "why_tests_cant": "2^64 values; the generator is itself what the tests rely on to cover all lengths", "anchors": ["src/serialization/rand_varint.rs:9-44", "src/serialization/rand_varint.rs:57-112", "src/serialization/v2_serializer.rs:199-250"]}
{"id": "C87", "title": "The percentile of an item", "statement": "The percentile of an item of any iterator is between 0 and 100, within one part in 2^50 of 100 times the share of the samples reported up to the item, and 100 once all samples have been reported; with up to 2^53 samples it is 100 only then.", "quantifier": "all histograms whose len() is the sum of the counts, all PickyIterators, all items", "why_tests_cant": "four roundings on the way from two counts to the percentile; that 100 is never reached early depends on the direction of the last one", "anchors": ["src/iterators/mod.rs:121-123", "src/iterators/mod.rs:164-256"]}
{"id": "C88", "title": "What the text of an error says", "statement": "Within each error type the text (Display) tells which error it is, whatever the text of a wrapped I/O error; an I/O error is reported as one; source() is there exactly when another error is wrapped, and the text then ends with that of the source.", "quantifier": "all errors of all nine error types, all texts of wrapped I/O errors", "why_tests_cant": "quantifies over all texts of wrapped errors; no test looks at the texts", "anchors": ["src/errors/mod.rs:77-134", "src/serialization/deserializer.rs:37-76", "src/serialization/v2_serializer.rs:26-48", "src/serialization/v2_deflate_serializer.rs:26-46", "src/serialization/interval_log/mod.rs:420-438"]}
{"id": "C89", "title": "The histograms of a log add up to what was recorded", "statement": "Write any histograms, of any counter types, with or without tags, to an interval log with the V2 or the V2+DEFLATE serializer. Parsing the log, decoding and deserializing the intervals with the wanted tags and adding them to a histogram that resizes itself succeeds, and the result holds what it held before and every sample of the histograms written with these tags exactly once.", "quantifier": "all sequences of write calls, all reachable histograms and sample lists they hold, all sets of tags, all counter types of the accumulator that can hold the counts, all lawful compressors", "why_tests_cant": "The claim spans the writer, the text format, base64, the wire format, compression, merging across counter types and resizing, for every sequence of calls; a test follows a few logs.", "anchors": ["src/serialization/interval_log/mod.rs", "src/serialization/v2_serializer.rs", "src/serialization/v2_deflate_serializer.rs", "src/serialization/deserializer.rs", "src/lib.rs"]}
{"id": "C90", "title": "A SyncHistogram adds up what all threads recorded", "statement": "After any number of threads have recorded through any number of recorders, in any interleaving with any refreshes, once all recorders are dropped and a further refresh has returned, the SyncHistogram holds exactly the samples it started with and those recorded by all threads: every count is the number of samples of that class, len() their total number, and so value_at_quantile answers for the samples of all threads together. At any earlier moment, also with outdated phases, an owner that records and resets, it holds exactly the samples of some of the writes, the others being taken out by resets or still under way. (As long as no counter overflows.)", "quantifier": "all reachable histograms, all interleavings of any number of recorders, refreshes and owner actions, all recorded values and counts that do not overflow a counter", "why_tests_cant": "The interleavings, the values and the number of threads are unbounded; the tests in tests/sync.rs run a few threads on one schedule each.", "anchors": ["src/sync/mod.rs", "src/lib.rs"]}
{"id": "C91", "title": "Concurrent recording in a release build", "statement": "With overflow checks off, SyncHistogram and its recorders do exactly what the checked build does in every interleaving in which the checked build does not panic. Whatever the interleaving, including leaked idle guards, the shared recorder count is, whenever the lock is free, the number of recorders that exist and are not idle minus the number of leaked guards, modulo 2^64, and drop and idle do not panic when they decrement it. A refresh without time limit does not return before it was given as many histograms as the count it read; so once more guards are leaked than there are such recorders, it waits for nearly 2^64 histograms and can hang for good, where the checked build panics in drop.", "quantifier": "all histogram types (1: all histograms and writes), all interleavings of any length (1: below 2^64 steps), all leaks", "why_tests_cant": "Tests are built with overflow checks and sample few interleavings; the wrapped count only appears after a leaked guard and shows as a hang.", "anchors": ["src/sync/mod.rs:44-78", "src/sync/mod.rs:111-138", "src/sync/mod.rs:188-206", "src/sync/mod.rs:303-355", "src/sync/mod.rs:373-386"]}
{"id": "C92", "title": "The texts of configuration errors are true", "statement": "When new_with_bounds refuses its arguments with LowIsZero, LowExceedsMax, HighLessThanTwiceLow or SigFigExceedsMax, the condition printed in the text of the error, with the number in it, is violated by the arguments; when it accepts them, they satisfy the conditions printed in all these texts.", "quantifier": "all u64 bounds, all significant digits, all errors", "why_tests_cant": "the texts are constants far from the code they describe; a test compares a text with itself, not with the set of arguments it speaks of", "anchors": ["src/errors/mod.rs:77-88", "src/lib.rs:736-766"]}
{"id": "C93", "title": "A SyncHistogram survives the panics of a refresh", "statement": "If the panics of refreshes are caught and the program goes on, in any interleaving: every write is in exactly one place: merged, in the channel, in a live recorder, or lost. Without leaked idle guards only merges panic; a merge panics exactly if the SyncHistogram does not resize automatically and the histogram received is not empty and has max() == u64::MAX; exactly such histograms are lost, each by the merge that panicked on it; the recorder count stays right, the mutex is not poisoned, and a later refresh can complete. With a leaked guard the drop or idle of another recorder can panic with the lock held; then the mutex is poisoned, no refresh begun afterwards ever returns and no recorder can be made.", "quantifier": "all interleavings with any number of recorders and caught panics, all writes with arguments of the right types", "why_tests_cant": "no test makes a refresh panic and goes on; the states a caught panic can leave behind depend on the interleaving", "anchors": ["src/sync/mod.rs:44-78", "src/sync/mod.rs:111-138", "src/sync/mod.rs:188-205", "src/sync/mod.rs:303-386"]}
{"id": "C94", "title": "Concurrent recording in every execution: what is missing, what is counted, what is waited for, what is lost", "statement": "In every execution of a SyncHistogram and its recorders, also when the loads of the phase made by recorders are outdated and the owner writes to and resets the merged histogram between refreshes: (1) when a refresh returns, with or without timeout, everything ever written is in the merged histogram or was taken out of it by a reset, except exactly those writes that some recorder has made since it last sent its histogram; (2) whenever the lock on the recorder count is free, the count is the number of recorders that exist and are not idle, less one for every leaked idle guard, also after the SyncHistogram was dropped; (3) a waiting refresh can return without recorders doing anything more exactly if at least as many histograms were in the channel when the count was read or have been sent since as it counted recorders; (4) after the SyncHistogram was dropped its merged histogram does not change and what recorders send is lost.", "quantifier": "all executions of any number of recorders, refreshes and owner operations, all outdated phase loads, all timeouts", "why_tests_cant": "Outdated loads depend on the memory system and cannot be provoked by a test; the statements range over all interleavings.", "anchors": ["src/sync/mod.rs:44-78", "src/sync/mod.rs:111-138", "src/sync/mod.rs:164-205", "src/sync/mod.rs:303-386", "src/sync/mod.rs:404-415"]}
{"id": "C95", "title": "Whatever the owner does to the merged histogram, only a merge can panic, and exactly when the range is too small", "statement": "Through DerefMut the owner of a SyncHistogram may call any method on the merged histogram, or put another histogram (other bounds, precision, auto-resize) in its place, between refreshes and while recorders record. Still every histogram in the system stays one that a program without threads could have made; a recorder keeps the settings it was made with; no call of a recorder ever panics; and a step of a refresh panics exactly if it merges a non-empty histogram into one that does not resize and does not cover the largest value received (or that value is u64::MAX).", "quantifier": "all executions of any number of threads, all owner actions, all writes of the recorders, all outdated loads", "why_tests_cant": "the panic needs an owner action between a recording and the refresh that merges it; tests never touch the settings of the merged histogram after recorders exist", "anchors": ["src/sync/mod.rs:411-415", "src/sync/mod.rs:303-355", "src/sync/mod.rs:370-395"]}
{"id": "C96", "title": "The merged histogram is what a program without threads would make of it", "statement": "Between any two moments the merged histogram is changed as if by a program without threads: a sequence of add calls with the histograms sent by the recorders, in the order in which they were sent, each exactly once and none skipped (the last ones sent may still be in the channel), mixed with the calls made by the owner in the owner's order. Each histogram a recorder sends is a new empty one to which exactly this recorder's writes since it last sent one were made, in order.", "quantifier": "all executions of any number of threads, for arbitrary histogram operations and writes", "why_tests_cant": "needs all interleavings, and equality of whole histograms (not only of counts) also for writes that do not commute such as subtract", "anchors": ["src/sync/mod.rs:160-190", "src/sync/mod.rs:303-355", "src/sync/mod.rs:60-78"]}
{"id": "C97", "title": "Equal histograms with the same high() and auto-resize setting are interchangeable", "statement": "If two histograms of one counter type compare equal (==) and have the same high() and is_auto_resize(), no program can tell them apart: whatever calls of the API it makes, deciding on each call from all answers and read-outs so far, it sees the same answers (values, counts, iterator items, serialized bytes, errors) and read-outs and panics at the same calls with the same panic, now and after any further changes. Conversely, any other two histograms are told apart by some program. In particular a histogram whose statistics are those a reader computes can be replaced by what is read back from its serialization, once auto is set as it was.", "quantifier": "all reachable histograms, all adaptive programs over the API (all calls except Debug formatting), all lengths, any number of exchanged histograms", "why_tests_cant": "quantifies over all programs and all later states; the hidden raw max/min values of equal histograms may differ, and every function that reads or writes them must be shown not to reveal the difference", "anchors": ["src/lib.rs:1869-1897", "src/lib.rs:302-350", "src/lib.rs:1640-1690"]}
{"id": "C98", "title": "Logs that were cut off, and logs one after the other", "statement": "If an interval log is cut off at any byte, exactly the lines that are still complete are read, as in the whole log, and then, unless it was cut at the end of a line, one error at the position where the incomplete line begins; no entry is changed or added. A log that is read without an error may be followed by any other text, such as another log or the beginning of a line: first its own entries are read, then what is read from the other text, with errors at their position in the whole. So a log written to a writer that may fail at any moment, with nothing written after the first failed call, is read as the first entries of the intended log and then at most one error.", "quantifier": "all byte strings, all places to cut, all writers that keep the contract of Write, every lawful model of nom's double parser", "why_tests_cant": "all places in all logs; relies on no incomplete line being a complete line of another kind", "anchors": ["src/serialization/interval_log/mod.rs:641-694", "src/serialization/interval_log/mod.rs:709-819", "src/serialization/interval_log/mod.rs:462-498"]}
{"id": "C99", "title": "Release builds read and write the same logs and the same tables", "statement": "Compiled without overflow checks and debug assertions, the interval log iterator yields for every byte string exactly the items it yields with them; a log writer given histograms produced through the API writes the same bytes or returns the same error; the subcommand `serialize` of the command line tool does the same for all arguments and inputs; and every table `iter-quantiles` prints with checks it prints without. So what is claimed about logs and tables holds in release builds too. The only difference is the running sum over the rows, which a release build prints modulo 2^64 where the checked build panics.", "quantifier": "all byte strings, all sequences of calls of a log writer on reachable histograms, all arguments and inputs of the tool", "why_tests_cant": "tests run in one build profile, and the inputs on which arithmetic could wrap (durations, offsets, exponents of ten, sums above 2^64) are not enumerable", "anchors": ["src/serialization/interval_log/mod.rs:462-498", "src/serialization/interval_log/mod.rs:661-693", "src/serialization/interval_log/mod.rs:760-830", "examples/cli.rs:84-225"]}
{"id": "C100", "title": "Recording calls can be made in any order", "statement": "For any sequence of calls of record, record_n, saturating_record, saturating_record_n, record_correct and record_n_correct, each made whether or not earlier ones failed, every reordering leaves the identical histogram, and every call returns the same result as in the other order; no call panics. With auto-resize on, a value given to a saturating method has to be covered from the start (otherwise the value it is clamped to depends on what was recorded before).", "quantifier": "all reachable histograms, counter types, lists of calls with arguments of the right types, and permutations of them", "why_tests_cant": "Ranges over all call sequences and all their permutations, with values inside and outside the covered range, saturated counters and growth of the array in between.", "anchors": ["src/lib.rs:849-883", "src/lib.rs:885-975"]}
{"id": "C101", "title": "Quantiles follow the samples", "statement": "Recording a value any number of times moves every quantile towards that value and not beyond it: value_at_quantile(q) afterwards lies between its answer before and the value (or one equivalent to it). And larger samples have larger quantiles: if one histogram holds as many samples as another of the same lowest discernible value and precision, each at least as large as its counterpart, then value_at_quantile(q) is at least as large for every q, and quantile_below(v) at most as large for every v. Both for up to 2^53 samples, no counter saturated, every f64 as q, f64 rounding included.", "quantifier": "all reachable histograms holding 1 to 2^53 samples, values, counts, and f64 quantiles", "why_tests_cant": "Depends on the rounding of q*n to f64 before ceil: the claim needs that adding one sample raises the computed rank by 0 or 1 for every f64 q and every n, which cannot be enumerated.", "anchors": ["src/lib.rs:1340-1369", "src/lib.rs:1391-1420", "src/lib.rs:885-930"]}
{"id": "C102", "title": "Quantiles of merged histograms", "statement": "If two histograms of the same lowest discernible value and precision are added, every quantile of the sum lies between the quantiles of the two.", "quantifier": "all reachable histograms of the same layout holding up to 2^53 samples together, all f64 quantiles", "why_tests_cant": "False only for quantiles whose product with the number of samples is rounded to an integer; ordinary test quantiles do not show it.", "anchors": ["src/lib.rs:1340-1369", "src/lib.rs:462-540"]}
{"id": "C103", "title": "Copying between configurations costs the coarser precision, not the sum", "statement": "After a successful add, whatever the two configurations, the receiver holds its own samples and those of the source, each replaced by the lowest value equivalent to it in the source. So when up to 2^53 samples are copied into an empty histogram of another range, unit or precision, every quantile of the copy is equivalent, in the copy or in the source, to the sample of that rank and stands for it with the precision of that one; and in a chain of copies through any number of histograms, with that of one of them: quantization errors do not add up.", "quantifier": "all pairs and chains of configurations, sample lists and f64 quantiles", "why_tests_cant": "Ranges over all chains of configurations; the argument that errors do not accumulate rests on the alignment of all classes of all layouts at powers of two.", "anchors": ["src/lib.rs:462-552", "src/lib.rs:1340-1369"]}
{"id": "C104", "title": "Histograms holding the same samples answer alike; recording in a finer histogram first loses nothing", "statement": "Two histograms with the same lowest discernible value and precision that hold the same samples give the same len(), count_at for every value both cover, mean(), stdev(), value_at_quantile for every f64, iter_recorded items and (up to 2^53 samples) quantile_below, whatever their counter types, ranges, auto-resize settings and histories. The classes of a histogram with a unit not above and a precision not below another's lie within that one's, so recording samples in the finer one and adding it to the coarser one answers like recording them there directly.", "quantifier": "all reachable histograms, counter types, sample lists, values and quantiles", "why_tests_cant": "Compares histories of any length and any pair of configurations.", "anchors": ["src/lib.rs:462-552", "src/lib.rs:1293-1319", "src/lib.rs:1340-1420"]}
{"id": "C105", "title": "From the recording threads through an interval log to a quantile", "statement": "When threads record through the recorders of a SyncHistogram, and its owner logs the merged histogram of every interval before resetting it, and once more after all recorders are gone and a refresh has returned, then the logged histograms share out what the SyncHistogram started with and every sample recorded, each sample being in exactly one of them; a program that parses the log and adds up its histograms holds every sample exactly once, and value_at_quantile of the result answers for the rank among all samples within the configured precision.", "quantifier": "for all executions (any number of threads, recorders, refreshes, timeouts, outdated phase loads, recordings and resets by the owner), counter types, configurations, comments, times and tags, and accumulators with no finer unit and no more significant digits", "why_tests_cant": "The composition ranges over all interleavings, all points at which the owner may reset, and all logs; a test follows one schedule and a handful of samples.", "anchors": ["src/sync/mod.rs:290-373", "src/lib.rs:462-552", "src/lib.rs:669-678", "src/serialization/interval_log/mod.rs:462-497", "src/lib.rs:1340-1375"]}
{"id": "C106", "title": "Correcting for coordinated omission afterwards agrees with correcting while recording, up to the class width", "statement": "Recording samples with record_n_correct makes a histogram hold the samples and the series they hide. add_correct and clone_correct of a histogram holding samples give one that holds the samples as reported (each as the highest value equivalent to it) and the series these hide. Compared with correcting while recording, correcting afterwards finds at least as many samples above every value, and, looking higher by the width d of the classes and above the interval, no more: the k-th largest samples differ by at most d, upwards. For samples that are their own highest equivalent values both ways give histograms that answer alike.", "quantifier": "all reachable histograms, samples (below u64::MAX), intervals, ranks", "why_tests_cant": "The claim relates two procedures for all sample lists and intervals; tests/data_access.rs compares them for one list of values.", "anchors": ["src/lib.rs:427-437", "src/lib.rs:571-582", "src/lib.rs:951-974"]}
{"id": "C107", "title": "iter_quantiles and value_at_quantile agree", "statement": "For every item of iter_quantiles, value_at_quantile of the item's quantile_iterated_to is equivalent to the item's value.", "quantifier": "all reachable histograms holding a list of up to 2^53 samples, all tick counts, all items", "why_tests_cant": "The iterator compares rounded quotients, value_at_quantile rounded products; the two disagree only for particular combinations of counts and ticks, which no list of examples exhausts.", "anchors": ["src/iterators/quantile.rs:38-173", "src/lib.rs:1340-1369"]}
{"id": "C108", "title": "Iterators and queries agree", "statement": "For every item of iter_recorded, iter_all, iter_linear, iter_log and iter_quantiles on a non-empty histogram: the item's quantile is quantile_below of its value, its count_at_value is count_at of its value, and the counts since the last iteration up to the item add up to count_between(0, its value).", "quantifier": "all reachable non-empty histograms holding a list of samples (any number), all step sizes, bases and tick counts, all items", "why_tests_cant": "The five iterators and the three queries compute their sums in different ways (quantile_below counts from the top in the upper half); agreement on every histogram and every item is not a matter of examples.", "anchors": ["src/iterators/mod.rs:160-254", "src/lib.rs:1391-1455"]}
{"id": "C109", "title": "Mean and standard deviation of merged samples", "statement": "If a histogram holds the samples of two others of the same lowest discernible value and precision together (as after add), its mean is the average of the two means weighted with their numbers of samples, and its squared standard deviation is the equally weighted average of the two squared standard deviations plus the squared difference of the means times the product of the two shares, both up to f64 rounding.", "quantifier": "all reachable histograms of the same layout, any counter types and coverage, all non-empty multisets of samples; error at most 2^-26 of the mean and 2^-22 of the square of the largest class middle", "why_tests_cant": "The law relates three histograms over all pairs of sample multisets, with an explicit bound on accumulated floating point error; a test sees single pairs.", "anchors": ["src/lib.rs:1293-1326", "src/lib.rs:462-535"]}
{"id": "C110", "title": "A histogram can be rebuilt from its iterators", "statement": "Recording value_iterated_to with count_since_last_iteration for every item of iter_recorded into the empty histogram new_from makes succeeds and gives a histogram of the same configuration with the same counts, holding the same samples, and == to the original; with iter_all likewise.", "quantifier": "all reachable histograms whose len() is the sum of their counts, all counter types, auto-resize on or off", "why_tests_cant": "It joins the iterators, the recording path and equality over every reachable state; a test rebuilds a few histograms.", "anchors": ["src/lib.rs:1183-1185", "src/lib.rs:1242-1244", "src/lib.rs:826-839", "src/lib.rs:1869-1897"]}
{"id": "C111", "title": "reset, set_to and set_to_corrected leave no trace of the past", "statement": "reset() leaves nothing of a histogram but its configuration: two histograms of the same low(), high(), sigfig() and is_auto_resize() are the same after reset(), and set_to(b) and set_to_corrected(b, interval) have the same result on both, errors included. After set_to the histogram holds the samples b passes on (their lowest equivalent values) and nothing else, after set_to_corrected those b reports with the series they hide, whatever the two configurations. A reset histogram is the one new_from makes exactly if the unit is 1; with any unit the two give the same results to any recordings, never differ but in max(), and are the same once a value above 0 is recorded.", "quantifier": "all reachable histograms and sources, intervals, lists of recordings", "why_tests_cant": "Independence of the past quantifies over all pairs of histories; tests compare a few query results after one reset.", "anchors": ["src/lib.rs:438-441", "src/lib.rs:446-453", "src/lib.rs:661-678", "src/lib.rs:826-839", "src/lib.rs:1702-1713"]}
{"id": "C112", "title": "Counts can be split and collected, equivalent values exchanged", "statement": "record_n(v, a) followed by record_n(v, b) leaves the identical histogram, and returns the same, as record_n(v, a + b), if a + b fits the counter type; so do saturating_record_n and record_n_correct; n calls of record(v) do what record_n(v, n) does. In a sequence of record_n calls every value can be replaced by any value equivalent to it: the result is the same, and the histograms left compare equal, with the same high(), so that no program can tell them apart (C97). Exceptions: 0 is told apart from other values of its class by max(), and u64::MAX from other values of its class by max() and min_nz().", "quantifier": "all reachable histograms, counter types, values, counts and sequences of calls, whether or not they succeed", "why_tests_cant": "Tests compare a few histograms; that raw cached statistics, saturation and resizing never let a program see how samples were batched or which value of a class was recorded is a statement about all states.", "anchors": ["src/lib.rs:849-883", "src/lib.rs:885-968", "src/lib.rs:1673-1702"]}
{"id": "C113", "title": "The size of a serialized histogram depends on how many classes hold samples", "statement": "A histogram in which k classes hold samples is serialized to at least 40 + k and at most 44 + 13 k bytes, whatever its range and precision: 40 for the header, one to nine for each count, at most four for each run of empty classes. Hence a histogram holding samples of m different values takes at most 44 + 13 m bytes.", "quantifier": "all reachable histograms that can be serialized, all counter types", "why_tests_cant": "Tests look at the sizes of a few encodings; the bound is over all counts, gaps between recorded classes and configurations.", "anchors": ["src/serialization/v2_serializer.rs:70-113", "src/serialization/v2_serializer.rs:135-255"]}
{"id": "C114", "title": "Statistics stay exact under subtract, and snapshots can be subtracted", "statement": "If the length, maximum and non-zero minimum of a histogram are those of its samples, they still are after subtracting another histogram. In particular, subtracting an earlier snapshot from a histogram leaves exactly the samples recorded since.", "quantifier": "all reachable histograms and subtrahends of every configuration and counter type", "why_tests_cant": "Whether the statistics are computed anew depends on where the subtracted samples lie relative to the extremes; the tests subtract from histograms without zeros or take away everything.", "anchors": ["src/lib.rs:587-654", "src/lib.rs:1716-1732"]}
{"id": "C115", "title": "Statistics stay exact under add, and when subtract undoes add completely", "statement": "Let two histograms of the same configuration report the length, maximum and non-zero minimum of their samples, no counter of their sum overflow and no sample lie in the class of u64::MAX. Then their sum reports those of all samples. Subtracting the second from the sum gives a histogram == to the first exactly if the second has a min() at most that of the first, or a max() at least that of the first, or a min_nz() at least that of the first, or the sum has len() u64::MAX (both not empty).", "quantifier": "all pairs of reachable histograms of the same configuration with exact statistics, all counter types", "why_tests_cant": "The answer depends on the relative position of six statistics; the tests subtract from one or two fixed pairs and do not compare with ==.", "anchors": ["src/lib.rs:462-552", "src/lib.rs:587-654", "src/lib.rs:1716-1732"]}
{"id": "C116", "title": "Histograms of the same samples cannot be told apart, however they were made", "statement": "Two histograms of the same counter type, configuration and auto-resize setting that hold the same samples and report the length, maximum and non-zero minimum of these are ==, and no program using the API can tell them apart. In particular, recording samples into two (or any number of) empty histograms and adding (or summing) these up cannot be told apart from recording all samples into one (samples in range and below the class of u64::MAX, no counter overflowing, a sample other than 0 in each if the unit is above 1).", "quantifier": "all reachable histograms, all sample lists, all adaptive programs over the API", "why_tests_cant": "Tests compare a few answers of a few merged histograms; the claim is about every later behaviour of all of them.", "anchors": ["src/lib.rs:462-552", "src/lib.rs:868-929", "src/lib.rs:1815-1830", "src/lib.rs:1869-1897"]}
{"id": "C117", "title": "Histograms collected as bytes and summed up behave like one that recorded everything", "statement": "Samples are recorded in any number of places, each into its own copy of an empty histogram. Every copy is serialized (V2, or V2+DEFLATE with a correct zlib, in any mixture), the encodings are sent one after the other in one stream, the receiver deserializes them all and sums them up. Every step succeeds, the stream is read exactly up to the end of the last encoding, and the sum is == to, and cannot be told apart by any program from, a histogram that recorded all samples itself (auto-resize off, samples in range and below the class of u64::MAX, no counter overflowing or above i64::MAX, a sample other than 0 in each part if the unit is above 1).", "quantifier": "all configurations and counter types, any number of parts, all sample lists, any bytes after the stream, overflow checks on or off, all adaptive programs over the API", "why_tests_cant": "Tests send a few histograms and compare a few counts; the claim composes recording, encoding, decoding and merging for all data, and is about every later behaviour.", "anchors": ["src/serialization/v2_serializer.rs:70-190", "src/serialization/deserializer.rs:104-115", "src/serialization/deserializer.rs:137-202", "src/lib.rs:462-552", "src/lib.rs:1816-1831"]}
{"id": "C118", "title": "Equal histograms are interchangeable in release builds too", "statement": "In a release build, where arithmetic overflow wraps around instead of panicking, a program that makes any calls of the API, deciding on each from all it has seen, sees the same answers and read-outs and panics at the same call with the same panic, if it is given histograms that compare equal and have the same high() and is_auto_resize() in place of its own. No other histograms can be exchanged like this, so which ones can does not depend on the build.", "quantifier": "all reachable histograms, counter types, adaptive programs of any length over the API, including calls for which a debug build panics", "why_tests_cant": "Tests compare single answers; the claim is about every program, and about answers that come out of wrapped arithmetic.", "anchors": ["src/lib.rs:1869-1897", "src/lib.rs:1293-1420", "src/iterators/mod.rs:164-256"]}
{"id": "C119", "title": "Sums of histograms do not depend on order or grouping", "statement": "Let any number of histograms have the same configuration and auto-resize setting, report the length, maximum and non-zero minimum of their samples, and hold no sample in the class of u64::MAX; let no counter of their sum overflow. Then summing them up (iter::Sum) succeeds, and the sum holds for every value what they hold together and has the same properties. Summing them up in any other order, or in groups and then the sums of the groups, gives a histogram that is == to it and that no program using the API can tell apart from it.", "quantifier": "all finite lists of reachable histograms, all counter types, all permutations and groupings, all adaptive programs over the API", "why_tests_cant": "Tests sum a few histograms in one order; the claim is about all orders and groupings and about every later behaviour of the results.", "anchors": ["src/lib.rs:1816-1831", "src/lib.rs:462-552", "src/lib.rs:1787-1797"]}
{"id": "C120", "title": "Recording through many threads cannot be told apart from recording in one", "statement": "Let a SyncHistogram be made from a blank histogram of unit 1 that does not resize, and let any number of threads record through any number of recorders, in any interleaving with any refreshes, no value in the class of u64::MAX and no counter overflowing. Once all recorders are dropped and a further refresh has returned, the SyncHistogram is == to a plain histogram into which one thread recorded the same samples in any order, and no program using the API of plain histograms can tell the two apart. The same holds if recorders see outdated phases and the owner records into the histogram as well. At any other moment, also after resets, it is what one thread would have made by recording the samples of some of the writes, the others being taken out by resets or still under way.", "quantifier": "all blank reachable histograms of unit 1 without auto-resize, all interleavings of any number of recorders, refreshes and owner actions, all recorded values and counts within the stated limits, all orders of the samples, all adaptive programs over the API", "why_tests_cant": "The interleavings, the samples and the later programs are unbounded; tests/sync.rs checks a few counts after one schedule each.", "anchors": ["src/sync/mod.rs:303-369", "src/sync/mod.rs:57-70", "src/sync/mod.rs:163-187", "src/sync/mod.rs:265-292", "src/lib.rs:462-552", "src/lib.rs:1787-1797"]}
{"id": "C121", "title": "However a histogram was built up from its samples, it is the same histogram", "statement": "Let histograms be grown from a blank one of unit 1 that does not resize, by record_n, record_n_correct and saturating_record_n, by adding other histograms so grown, by reset, new_from and clone, and by V2 or (given a correct zlib) V2+DEFLATE serializing and reading back from any position of a stream, in any number and order, no value in the class of u64::MAX and no counter overflowing. None of these calls fails (serializing as long as no counter exceeds i64::MAX). The result is == to a histogram into which its samples were recorded one by one in any order, and no program using the API can tell them apart; so two histograms grown in different ways from the same samples are ==.", "quantifier": "all blank reachable histograms of unit 1 without auto-resize, all finite trees of the listed calls, all values and counts within the stated limits, all orders of the samples, all adaptive programs over the API", "why_tests_cant": "The ways to build up a histogram are unbounded trees of calls; tests compare a few fixed ones.", "anchors": ["src/lib.rs:462-552", "src/lib.rs:661-675", "src/lib.rs:826-985", "src/lib.rs:1787-1797", "src/lib.rs:1869-1897", "src/serialization/v2_serializer.rs", "src/serialization/deserializer.rs", "src/serialization/v2_deflate_serializer.rs"]}
