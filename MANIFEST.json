{
 "claims": [
  {
   "property": "C01",
   "status": "proved",
   "theorems": [
    "Hdr.C01_constructor",
    "Hdr.C01_new",
    "Hdr.C01_new_with_max"
   ],
   "note": "Acceptance and first error, for every u64 bound and every log2 in use. Also for the constructors new and new_with_max (C01_new, C01_new_with_max)."
  },
  {
   "property": "C02",
   "status": "proved",
   "theorems": [
    "Hdr.C02_fresh_bounds",
    "Hdr.C02_fresh_max",
    "Hdr.C02_fresh_new",
    "Hdr.C02_fresh_from"
   ],
   "note": ""
  },
  {
   "property": "C03",
   "status": "proved",
   "theorems": [
    "Hdr.C03_range"
   ],
   "note": ""
  },
  {
   "property": "C04",
   "status": "proved",
   "theorems": [
    "Hdr.C04_precision",
    "Hdr.C04_unit"
   ],
   "note": ""
  },
  {
   "property": "C05",
   "status": "proved",
   "theorems": [
    "Hdr.C05_equivalence",
    "Hdr.C05_classes",
    "Hdr.C05_lowest",
    "Hdr.C05_next",
    "Hdr.C05_count",
    "Hdr.C05_top_capped"
   ],
   "note": "The last class (ending at u64::MAX) is stated with the capped answers the code gives; C05_top_capped exhibits them."
  },
  {
   "property": "C06",
   "status": "partial",
   "theorems": [
    "Hdr.C06_low_discernible_of_exact",
    "Hdr.C06_low_discernible_partial",
    "Hdr.C06_refuted",
    "Hdr.C06_iff"
   ],
   "note": "Holds for every low below 2^45 and whenever log2 does not round up; C06_refuted shows the full claim is false when log2 rounds to the next integer (2^50-1). C06_iff says for every low exactly which values are equivalent to 0."
  },
  {
   "property": "C07",
   "status": "proved",
   "theorems": [
    "Hdr.C07_median"
   ],
   "note": ""
  },
  {
   "property": "C08",
   "status": "proved",
   "theorems": [
    "Hdr.C08_storage"
   ],
   "note": ""
  },
  {
   "property": "C09",
   "status": "proved",
   "theorems": [
    "Hdr.C09_record_effect"
   ],
   "note": ""
  },
  {
   "property": "C10",
   "status": "proved",
   "theorems": [
    "Hdr.C10_record_fails"
   ],
   "note": ""
  },
  {
   "property": "C11",
   "status": "proved",
   "theorems": [
    "Hdr.C11_auto_resize"
   ],
   "note": "The statement was made precise: high() only changes when the array grows."
  },
  {
   "property": "C12",
   "status": "proved",
   "theorems": [
    "Hdr.C12_saturating"
   ],
   "note": ""
  },
  {
   "property": "C13",
   "status": "partial",
   "theorems": [
    "Hdr.C13_bounds_partial",
    "Hdr.C13_max_partial",
    "Hdr.C13_min_nz_partial",
    "Hdr.C13_min_partial",
    "Hdr.C13_refuted",
    "Hdr.C13_max_exact",
    "Hdr.C13_min_nz_exact",
    "Hdr.C13_min_exact"
   ],
   "note": "C13_bounds_partial, C13_max_partial, C13_min_nz_partial, C13_min_partial. Excluded are zeros recorded with a unit above 1 (max() stays 0) and a class ending at u64::MAX; C13_refuted shows the code violates the claim there. C13_max_exact, C13_min_exact and C13_min_nz_exact say what the three answer in every case, the excluded ones included."
  },
  {
   "property": "C14",
   "status": "proved",
   "theorems": [
    "Hdr.C14_history",
    "Hdr.C14_success",
    "Hdr.C14_order"
   ],
   "note": "Order independence is equality of the complete final state, from any reachable start."
  },
  {
   "property": "C15",
   "status": "proved",
   "theorems": [
    "Hdr.C15_correct",
    "Hdr.C15_series",
    "Hdr.C15_outcome"
   ],
   "note": ""
  },
  {
   "property": "C16",
   "status": "proved",
   "theorems": [
    "Hdr.C16_len_ge",
    "Hdr.C16_len_exact",
    "Hdr.C16_saturated"
   ],
   "note": ""
  },
  {
   "property": "C17",
   "status": "partial",
   "theorems": [
    "Hdr.C17_add_same_partial",
    "Hdr.C17_refuted",
    "Hdr.C17_max_refuted",
    "Hdr.C17_max_exact"
   ],
   "note": "Everything holds except two corners of the code, both refuted by concrete witnesses: a source whose max() is u64::MAX is refused without auto-resize (C17_refuted), and max() may become u64::MAX when the source max() is u64::MAX-1 with a unit above 1 (C17_max_refuted; C17_max_exact gives max() in every case). The settings of the target are preserved unless it grows or s contains u64::MAX."
  },
  {
   "property": "C18",
   "status": "partial",
   "theorems": [
    "Hdr.C18_add_outcome_partial",
    "Hdr.C18_refuted"
   ],
   "note": "Exact outcome characterisation; the English claim is false for sources with max() = u64::MAX (C18_refuted)."
  },
  {
   "property": "C19",
   "status": "proved",
   "theorems": [
    "Hdr.C19_exact",
    "Hdr.C19_max",
    "Hdr.C19_max_lower",
    "Hdr.C19_add_moves"
   ],
   "note": "C19_exact gives the whole operation: growing, then (different layouts) a sequence of recordings starting with the source's top class, or (same layout, empty target) taking over the source. C19_max locates max() of the sum; it can be below the source's max() (C19_max_lower, finding 29)."
  },
  {
   "property": "C20",
   "status": "partial",
   "theorems": [
    "Hdr.C20_subtract_effect",
    "Hdr.C20_subtract_undoes_add_partial",
    "Hdr.C20_refuted",
    "Hdr.C20_undo_iff",
    "Hdr.C20_undo_fit"
   ],
   "note": "Restoration proved for every source except those with max() = u64::MAX, for which C20_refuted shows it is false; C20_undo_iff gives the outcome in every case; C20_undo_fit does so also if counters become exactly full."
  },
  {
   "property": "C21",
   "status": "partial",
   "theorems": [
    "Hdr.C21_subtract_outcome_partial",
    "Hdr.C21_same_layout",
    "Hdr.C21_failed_subtract_modifies",
    "Hdr.C21_refuted"
   ],
   "note": "Exact outcome characterisation; u64::MAX counts as out of range even when covered (C21_refuted). A failed subtract may leave counts modified (C21_failed_subtract_modifies)."
  },
  {
   "property": "C22",
   "status": "partial",
   "theorems": [
    "Hdr.C22_reset",
    "Hdr.C22_clear",
    "Hdr.C22_set_to_partial",
    "Hdr.C22_set_to_refuted",
    "Hdr.C22_reset_max",
    "Hdr.C22_set_to_outcome"
   ],
   "note": "reset and clear in full; set_to in full except for the extremes of an empty source and a source with max() = u64::MAX (C22_set_to_refuted). C22_set_to_outcome says what set_to does in every case."
  },
  {
   "property": "C23",
   "status": "proved",
   "theorems": [
    "Hdr.C23_add_correct",
    "Hdr.C23_clone_correct",
    "Hdr.C23_clone_correct_zero"
   ],
   "note": ""
  },
  {
   "property": "C24",
   "status": "proved",
   "theorems": [
    "Hdr.C24_count_between",
    "Hdr.C24_point",
    "Hdr.C24_inverted",
    "Hdr.C24_whole"
   ],
   "note": ""
  },
  {
   "property": "C25",
   "status": "partial",
   "theorems": [
    "Hdr.C25_outcome",
    "Hdr.C25_rank",
    "Hdr.C25_found",
    "Hdr.C25_rounding",
    "Hdr.C25_mono_partial",
    "Hdr.C25_mono_exact_partial",
    "Hdr.C25_refuted",
    "Hdr.C25_negative_refuted",
    "Hdr.C25_overflow"
   ],
   "note": "value, rank, rounding bound and absence of panics for all f64; monotone from 0.0 on when the rank of 1.0 is reached (always so up to 2^53 samples and without saturated counters). C25_refuted: the rank may be unreachable, answer 0; C25_negative_refuted: a negative quantile answers more than 0.0."
  },
  {
   "property": "C26",
   "status": "partial",
   "theorems": [
    "Hdr.C26_zero",
    "Hdr.C26_one_rank",
    "Hdr.C26_one",
    "Hdr.C26_extremes_partial",
    "Hdr.C26_refuted"
   ],
   "note": "holds for exact statistics and at most 2^53 samples; C26_refuted gives reachable histograms outside these conditions for which it fails. C26_zero says what the 0.0 quantile is in every case, C26_one and C25_outcome what the 1.0 quantile is."
  },
  {
   "property": "C27",
   "status": "partial",
   "theorems": [
    "Hdr.C27_total",
    "Hdr.C27_empty",
    "Hdr.C27_value_partial",
    "Hdr.C27_value_exact_partial",
    "Hdr.C27_mono_partial",
    "Hdr.C27_one_partial",
    "Hdr.C27_refuted",
    "Hdr.C27_mono_refuted",
    "Hdr.C27_value_all"
   ],
   "note": "range and absence of panics for all reachable histograms; monotone when the sum of the counts fits u64; value and 1.0 from max() on when len() is the sum of the counts (no saturated counter); C27_refuted shows the last is needed. C27_mono_refuted: not monotone once the counts add up to more than u64::MAX. C27_value_all gives the value in every case, with saturated counters and sums."
  },
  {
   "property": "C28",
   "status": "proved",
   "theorems": [
    "Hdr.C28_eq_iff",
    "Hdr.C28_eq_refl",
    "Hdr.C28_eq_counts",
    "Hdr.C28_not_symmetric"
   ],
   "note": "The comparison is not symmetric for histograms of different range; C28_not_symmetric exhibits it."
  },
  {
   "property": "C29",
   "status": "proved",
   "theorems": [
    "Hdr.C29_iter_recorded"
   ],
   "note": ""
  },
  {
   "property": "C30",
   "status": "proved",
   "theorems": [
    "Hdr.C30_iter_all"
   ],
   "note": ""
  },
  {
   "property": "C31",
   "status": "partial",
   "theorems": [
    "Hdr.C31_panic",
    "Hdr.C31_linear_partial",
    "Hdr.C31_steps",
    "Hdr.C31_total_partial",
    "Hdr.C31_refuted"
   ],
   "note": "exact items, their number and termination for every step, provided the level after the last one fits u64 and (with 0 significant digits) the last level is below the class of u64::MAX; C31_panic shows that the code panics in all other cases, C31_refuted that they occur"
  },
  {
   "property": "C32",
   "status": "proved",
   "theorems": [
    "Hdr.C32_log"
   ],
   "note": "for every start above zero and every f64 base above one; the schedule is computed in the binary64 model"
  },
  {
   "property": "C33",
   "status": "partial",
   "theorems": [
    "Hdr.C33_empty",
    "Hdr.C33_run",
    "Hdr.C33_order",
    "Hdr.C33_final_partial",
    "Hdr.C33_refuted",
    "Hdr.C33_final_iff"
   ],
   "note": "no panic, finiteness, order, value quantile and the exact tick schedule are proved for every non-empty histogram and every nonzero u32 tick count, assuming log2 is accurate (Log2Law); C33_final_iff says exactly when the last item is for 1.0: when the saturated sum of the counts is not below len(), both as f64; C33_refuted shows that a saturated counter breaks it"
  },
  {
   "property": "C34",
   "status": "proved",
   "theorems": [
    "Hdr.C34_varint",
    "Hdr.C34_readers_agree"
   ],
   "note": "varint write/read round trip for every u64 with any following bytes, and agreement of the stream and slice readers"
  },
  {
   "property": "C35",
   "status": "proved",
   "theorems": [
    "Hdr.C35_zigzag_encode",
    "Hdr.C35_zigzag_decode"
   ],
   "note": "zig-zag bijection in both directions"
  },
  {
   "property": "C36",
   "status": "partial",
   "theorems": [
    "Hdr.C36_round_trip",
    "Hdr.C36_round_trip_eq_partial",
    "Hdr.C36_recorded_partial",
    "Hdr.C36_refuted",
    "Hdr.C36_max_refuted",
    "Hdr.C36_zeros_refuted",
    "Hdr.C36_reset_refuted",
    "Hdr.C36_read_stats",
    "Hdr.C36_eq_iff"
   ],
   "note": "round trip restores configuration and every count for every histogram, any counter type that fits; == in both directions for exact statistics, except for one corner (max() = u64::MAX-1 with unit > 1), refuted by C36_refuted; histories for which == fails are shown by the other _refuted theorems. C36_eq_iff says exactly when == holds, C36_read_stats what the reader makes of the statistics in every case."
  },
  {
   "property": "C37",
   "status": "partial",
   "theorems": [
    "Hdr.C37_total",
    "Hdr.C37_total_checked_partial",
    "Hdr.C37_checks_agree",
    "Hdr.C37_refuted"
   ],
   "note": "full in builds without overflow checks; with overflow checks nine consecutive 0xFF bytes panic (C37_refuted), excluded in the checked theorem; C70_panic states exactly which messages panic"
  },
  {
   "property": "C38",
   "status": "proved",
   "theorems": [
    "Hdr.C38_header",
    "Hdr.C38_valid"
   ],
   "note": "for all byte strings and any zlib"
  },
  {
   "property": "C39",
   "status": "proved",
   "theorems": [
    "Hdr.C39_serialize_safe"
   ],
   "note": "out-of-bounds unchecked access is an error value of the model and is shown not to happen"
  },
  {
   "property": "C40",
   "status": "proved",
   "theorems": [
    "Hdr.C40_self_delimiting",
    "Hdr.C40_truncated"
   ],
   "note": "streams of any number of histograms of any counter types; every strict prefix"
  },
  {
   "property": "C41",
   "status": "proved",
   "theorems": [
    "Hdr.C41_serialize_outcome"
   ],
   "note": ""
  },
  {
   "property": "C42",
   "status": "proved",
   "theorems": [
    "Hdr.C42_deflate"
   ],
   "note": "for every zlib satisfying Zlib.Lawful"
  },
  {
   "property": "C43",
   "status": "partial",
   "theorems": [
    "Hdr.C43_round_trip_partial",
    "Hdr.C43_exact",
    "Hdr.C43_histograms_partial",
    "Hdr.C43_comment_refuted",
    "Hdr.C43_before_epoch_refuted",
    "Hdr.C43_time_refuted",
    "Hdr.C43_failed_write_refuted",
    "Hdr.C43_every_log"
   ],
   "note": "Round trip proved for every sequence of calls with comments that do not look like time headers, times after the epoch and below 2^64-1024 s, and finite maximum/divisor quotients; nom's double and the tie rule of {:.3} are parameters with stated laws. The excluded cases are refuted: a comment is read as a header, headers before the epoch or near 2^64 s are lost, a failed write corrupts the next line. C43_every_log: without these conditions, exactly what any log whose writes all succeeded is read as."
  },
  {
   "property": "C44",
   "status": "proved",
   "theorems": [
    "Hdr.C44_total",
    "Hdr.C44_determined"
   ],
   "note": "All byte strings; nom's double is a parameter with stated laws (Dbl.Lawful, a concrete instance is given)."
  },
  {
   "property": "C45",
   "status": "partial",
   "theorems": [
    "Hdr.C45_new",
    "Hdr.C45_readback_partial",
    "Hdr.C45_readback_refuted",
    "Hdr.C45_parsed_tag_not_valid",
    "Hdr.C45_readback_exact"
   ],
   "note": "C45_readback_partial needs a readable line: times below 2^64 - 1024 seconds and a finite maximum; C45_readback_refuted: with a start time of u64::MAX seconds the line is written, and reading it gives an error. The other theorems in full. C45_readback_exact: every line written is read back with its tag exactly if its times and maximum can be read, and is an error otherwise."
  },
  {
   "property": "C46",
   "status": "proved",
   "theorems": [
    "Hdr.C46_duration",
    "Hdr.C46_value",
    "Hdr.C46_overflow"
   ],
   "note": ""
  },
  {
   "property": "C47",
   "status": "partial",
   "theorems": [
    "Hdr.C47_ghost",
    "Hdr.C47_exactly_once",
    "Hdr.C47_final",
    "Hdr.C47_no_panic_partial",
    "Hdr.C47_counts_partial",
    "Hdr.C47_max_refuted",
    "Hdr.Sync.C47_moved",
    "Hdr.Sync.C47_net",
    "Hdr.Sync.C47_net_final"
   ],
   "note": "C47_exactly_once and C47_final: every interleaving of any number of recorders and refreshes, in full, with the writes as units. C47_moved, C47_net and C47_net_final say the same of the counts of the real histograms for all writes, subtract included: every change a recorder makes to its own histogram (whatever it is at that moment) arrives in the merged histogram exactly once, as long as no class has more samples than a counter can hold. C47_counts_partial gives the resulting counts in closed form, with saturation, for record_n, saturating_record_n, record_n_correct (and their one-sample versions), add and add_correct; C47_no_panic_partial covers these and subtract. Both need values not equivalent to u64::MAX unless the histogram resizes; C47_max_refuted shows that recording u64::MAX makes the refresh panic and lose the sample, which is why this is partial."
  },
  {
   "property": "C48",
   "status": "partial",
   "theorems": [
    "Hdr.C48_refresh_partial",
    "Hdr.C48_idle_refuted",
    "Hdr.C48_drop_refuted",
    "Hdr.C48_drop_after_write_refuted",
    "Hdr.C48_timeout_refuted",
    "Hdr.C48_clone_refuted",
    "Hdr.C48_missing",
    "Hdr.C48_missing_counts",
    "Hdr.C48_outdated_loads_partial",
    "Hdr.C48_outdated_wake_refuted"
   ],
   "note": "Proved when recorders only write while a refresh is in progress, no refresh times out, and up to the samples held by idle recorders; C48_outdated_loads_partial has the same with outdated loads in writes and an active owner. Each condition is needed: refuting executions for an idle recorder, drop before the count is read, drop after answering, late answer after a timeout, clone of a recorder that has not answered, and an outdated load on reactivation. Without conditions: C48_missing says exactly which writes are not visible when a refresh returns, however it ends and whatever the recorders do: those a recorder made since it last sent its histogram; C48_missing_counts the same of the counts."
  },
  {
   "property": "C49",
   "status": "partial",
   "theorems": [
    "Hdr.C49_progress_partial",
    "Hdr.C49_returns_partial",
    "Hdr.C49_refuted",
    "Hdr.C49_outdated_loads_partial",
    "Hdr.C49_outdated_idle_refuted",
    "Hdr.C49_exact",
    "Hdr.C49_returns_iff",
    "Hdr.C49_timeout"
   ],
   "note": "Proved if no recorder goes idle between the reader's reading of the count and its phase change and no idle guard is leaked (C49_progress_partial for any histogram type, C49_returns_partial without panics for the real one; C49_outdated_loads_partial with outdated loads in writes and an active owner); C49_refuted and C49_outdated_idle_refuted show the code can wait for ever otherwise. C49_exact and C49_returns_iff, without conditions on when recorders go idle: a waiting refresh can complete on its own exactly if as many histograms were in the channel at the reading of the count, or were sent since, as recorders were counted; C49_timeout: refresh_timeout can always complete."
  },
  {
   "property": "C50",
   "status": "partial",
   "theorems": [
    "Hdr.C50_count",
    "Hdr.C50_forget_refuted",
    "Hdr.C50_exact"
   ],
   "note": "Proved for all executions without leaked guards; C50_forget_refuted shows that leaking the guard returned by idle() makes the count underflow. C50_exact is without conditions: the count is the number of active recorders less the number of leaked guards, and drop and idle panic exactly if these are equal."
  },
  {
   "property": "C51",
   "status": "proved",
   "theorems": [
    "Hdr.C51_no_panic",
    "Hdr.C51_call"
   ],
   "note": "any finite adaptive program of calls over any number of histograms; the whole API, with exactly the calls that panic, is in C80"
  },
  {
   "property": "C52",
   "status": "partial",
   "theorems": [
    "Hdr.C52_empty",
    "Hdr.C52_mean",
    "Hdr.C52_medians",
    "Hdr.C52_range_partial",
    "Hdr.C52_refuted",
    "Hdr.C52_range_all"
   ],
   "note": "C52_empty and C52_mean in full: finite, no panic, within 6 + (classes with samples) roundings of the exact average, relative error at most 2^-28. The between-min-and-max part (C52_range_partial) needs len() = sum of counts, min() not the u64::MAX sentinel and max() not the 0 of a histogram with only zeros and a unit above 1; C52_refuted shows the code violates it in each of the three cases. C52_range_all bounds the mean in every case."
  },
  {
   "property": "C53",
   "status": "partial",
   "theorems": [
    "Hdr.C53_sum_order_partial",
    "Hdr.C53_sum_grouping_partial",
    "Hdr.C53_refuted",
    "Hdr.C53_top_refuted",
    "Hdr.C53_unit_refuted",
    "Hdr.C53_no_samples_refuted",
    "Hdr.C53_overflow_refuted",
    "Hdr.C53_sum_empty",
    "Hdr.C53_counts",
    "Hdr.C53_counts_sum",
    "Hdr.C53_exact"
   ],
   "note": "Order independence of iter::Sum and of every parenthesisation. Every condition is needed: len() of a summand is the sum of its counts (C53_refuted), max() is not u64::MAX (C53_top_refuted: the sum panics), nor u64::MAX-1 with a unit above 1 (C53_unit_refuted), max() of a sum without samples is left out (C53_no_samples_refuted), and for parenthesisations no class overflows (C53_overflow_refuted). C53_sum_empty: the sum of no histograms is the default histogram. Without conditions on the summands: C53_counts and C53_counts_sum give the counts of any sum that does not panic (any order and grouping, saturation included), C53_exact when iter::Sum of equal configurations panics and its len()."
  },
  {
   "property": "C54",
   "status": "proved",
   "theorems": [
    "Hdr.C54_alphabet",
    "Hdr.C54_line_safe",
    "Hdr.C54_decode"
   ],
   "note": "base64 (crate) is modelled from RFC 4648; the decoder is a separate specification."
  },
  {
   "property": "C55",
   "status": "partial",
   "theorems": [
    "Hdr.C55_inverse_partial",
    "Hdr.C55_pow2_partial",
    "Hdr.C55_refuted",
    "Hdr.C55_reverse",
    "Hdr.C55_iff"
   ],
   "note": "The first half is false as stated because of rounding (C55_refuted: 55 of 100 samples). C55_inverse_partial: the answer is the class or the next class holding samples; C55_pow2_partial: exactly the class when the number of samples is a power of two. C55_reverse proves the second half in full. C55_iff: in every case, when the answer is the class and when the next one."
  },
  {
   "property": "C56",
   "status": "partial",
   "theorems": [
    "Hdr.C56_below",
    "Hdr.C56_mono_partial",
    "Hdr.C56_all_partial",
    "Hdr.C56_value_partial",
    "Hdr.C56_total_partial",
    "Hdr.C56_refuted",
    "Hdr.C56_below_all",
    "Hdr.C56_outcome"
   ],
   "note": "C56_below in full. Monotonicity, 100 from max() on, the rank and the absence of panics assume that no counter has saturated (respectively that the counts add up to at most u64::MAX), the rank also at most 2^53 samples; C56_refuted shows each fails otherwise. C56_below_all and C56_outcome give the result of percentile_below and value_at_percentile in every case, saturated counters and overflow included."
  },
  {
   "property": "C57",
   "status": "proved",
   "theorems": [
    "Hdr.C57_add_value",
    "Hdr.C57_add",
    "Hdr.C57_subtract"
   ],
   "note": "Add and Sub by value and by reference are one model definition each (lib.rs:1787-1859)."
  },
  {
   "property": "C58",
   "status": "partial",
   "theorems": [
    "Hdr.C58_fused",
    "Hdr.C58_running_sum_partial",
    "Hdr.C58_all_samples_partial",
    "Hdr.C58_returns",
    "Hdr.C58_refuted",
    "Hdr.C58_item"
   ],
   "note": "C58_fused and C58_returns in full. C58_running_sum_partial and C58_all_samples_partial assume that the counts add up to at most u64::MAX; C58_refuted shows that the sums saturate otherwise, and C58_item gives slot, count, quantile and count_since_last_iteration of every item in every case."
  },
  {
   "property": "C59",
   "status": "proved",
   "theorems": [
    "Hdr.C59_format"
   ],
   "note": "The format is specified on its own in Spec/Format.lean."
  },
  {
   "property": "C60",
   "status": "partial",
   "theorems": [
    "Hdr.C60_canonical",
    "Hdr.C60_injective",
    "Hdr.C60_reserialize_partial",
    "Hdr.C60_refuted",
    "Hdr.C60_same_bytes",
    "Hdr.C60_reserialize_iff"
   ],
   "note": "C60_canonical and C60_injective in full; C60_same_bytes: equal bytes mean exactly equal settings, equal counts and the same class of max(). C60_reserialize_partial assumes that the class of max() holds samples, or that there are none and max() is in the class of 0; C60_refuted: after record_n of a count 0 the trailing zeros are not written again; C60_reserialize_iff: the bytes are the same exactly under that condition."
  },
  {
   "property": "C61",
   "status": "proved",
   "theorems": [
    "Hdr.C61_counter_type"
   ],
   "note": ""
  },
  {
   "property": "C62",
   "status": "proved",
   "theorems": [
    "Hdr.Io.C62_reader"
   ],
   "note": "read_exact is the default implementation of std; the decompressor is a parameter assumed to deliver the decompressed bytes of whatever its reader delivers (Decoder.Inflates). What a compressed histogram leaves in the reader is not stated."
  },
  {
   "property": "C63",
   "status": "proved",
   "theorems": [
    "Hdr.Io.C63_serialize",
    "Hdr.Io.C63_serialize_deflate",
    "Hdr.Io.C63_log_call",
    "Hdr.Io.C63_log"
   ],
   "note": "write_all and write_fmt are the default implementations of std."
  },
  {
   "property": "C64",
   "status": "partial",
   "theorems": [
    "Hdr.C64_empty",
    "Hdr.C64_total",
    "Hdr.C64_stdev",
    "Hdr.C64_le_max_partial",
    "Hdr.C64_one_class",
    "Hdr.C64_refuted",
    "Hdr.C64_stdev_all",
    "Hdr.C64_le_all"
   ],
   "note": "accuracy against Real.sqrt of the exact variance; the hypothesis that the counts do not add up to more than len() only excludes histograms with more than 2^64 samples C64_le_max_partial needs max() not to be the 0 of a histogram with only zeros and a unit above 1; C64_refuted shows it fails there with a saturated counter. C64_stdev_all and C64_le_all hold for every reachable histogram, with the factor by which the counts exceed len() in the bounds."
  },
  {
   "property": "C65",
   "status": "proved",
   "theorems": [
    "Hdr.C65_ghost",
    "Hdr.C65_exactly_once",
    "Hdr.C65_intervals",
    "Hdr.C65_counts"
   ],
   "note": "For arbitrary histogram operations and writes (C65_exactly_once, C65_intervals; C65_ghost: the bookkeeping does not influence the run) and, for record_n, saturating_record_n, record_n_correct, add and add_correct, in terms of the counts of the real merged histogram (C65_counts)."
  },
  {
   "property": "C66",
   "status": "proved",
   "theorems": [
    "Hdr.C66_no_panic",
    "Hdr.C66_write_returns",
    "Hdr.C66_lock_released"
   ],
   "note": "For all writes a recorder offers (record_n, saturating_record_n, record_n_correct, add, add_correct, subtract) with the real histograms, clear of u64::MAX unless they resize, including outdated loads, owner actions and a dropped SyncHistogram. Leaked idle guards are excluded (C50_forget_refuted)."
  },
  {
   "property": "C67",
   "status": "proved",
   "theorems": [
    "Hdr.C67_reads",
    "Hdr.C67_accepts",
    "Hdr.C67_unambiguous",
    "Hdr.C67_compressed"
   ],
   "note": "The grammar (Spec/Format: readLeb, Numbers, expand, Stream, Fits) is written independently of the decoder. C67_reads and C67_accepts are the two directions, C67_unambiguous makes the description a function of the bytes. Which error is returned for refused bytes is C70."
  },
  {
   "property": "C68",
   "status": "proved",
   "theorems": [
    "Hdr.C68_text",
    "Hdr.C68_succeeds"
   ],
   "note": "Times of settings and calls are values of Duration and SystemTime (nanoseconds below 10^9, secs within u64; a time before the epoch is not the epoch). The tie rule of {:.3} is a parameter (Fmt). The F64 model has no negative zero, so a maximum 0 divided by a negative divisor would print -0.000 where the model prints 0.000."
  },
  {
   "property": "C69",
   "status": "proved",
   "theorems": [
    "Hdr.C69_reads",
    "Hdr.C69_unambiguous"
   ],
   "note": "nom's double is a parameter with laws (Dbl.Lawful). The grammar shows what the parser accepts beyond what the writer writes: a plus sign, tags with line feeds, dropped carriage returns, any text after a header time and a space."
  },
  {
   "property": "C70",
   "status": "proved",
   "theorems": [
    "Hdr.C70_error",
    "Hdr.C70_panic",
    "Hdr.C70_compressed"
   ],
   "note": "Both directions for errors (C70_error) and panics (C70_panic); together with C67 every byte string is decided. The checklist and the bad numbers are in Spec/Refuse. usize has 64 bits."
  },
  {
   "property": "C71",
   "status": "proved",
   "theorems": [
    "Hdr.C71_empty",
    "Hdr.C71_record",
    "Hdr.C71_correct",
    "Hdr.C71_add",
    "Hdr.C71_subtract",
    "Hdr.C71_serialize",
    "Hdr.C71_saturated"
   ],
   "note": "Contains is defined in Spec/Samples. C71_saturated shows that the condition on the counters is needed."
  },
  {
   "property": "C72",
   "status": "proved",
   "theorems": [
    "Hdr.C72_rank",
    "Hdr.C72_quantile",
    "Hdr.C72_every_quantile",
    "Hdr.C72_exact_rank",
    "Hdr.C72_sorted",
    "Hdr.C72_end_to_end"
   ],
   "note": "KthSmallest, Precise in Spec/Samples; the rank is specRank (Spec/Quantile), exact up to one by C72_exact_rank. C72_end_to_end starts from newWithBounds and a sorted permutation of the samples."
  },
  {
   "property": "C73",
   "status": "proved",
   "theorems": [
    "Hdr.C73_count_between",
    "Hdr.C73_quantile_below"
   ],
   "note": "Number of samples by number in Spec/Samples."
  },
  {
   "property": "C74",
   "status": "proved",
   "theorems": [
    "Hdr.C74_mean"
   ],
   "note": "spread, sampleMean in Spec/Samples."
  },
  {
   "property": "C75",
   "status": "proved",
   "theorems": [
    "Hdr.C75_stdev"
   ],
   "note": "spread, sampleStdev (real square root of the rational population variance) in Spec/Samples."
  },
  {
   "property": "C76",
   "status": "proved",
   "theorems": [
    "Hdr.C76_new",
    "Hdr.C76_reachable",
    "Hdr.C76_grow",
    "Hdr.C76_same",
    "Hdr.C76_serialize",
    "Hdr.C76_deserialize",
    "Hdr.C76_deserialize_accepted",
    "Hdr.C76_deserialize_header",
    "Hdr.C76_deserialize_exact",
    "Hdr.C76_deserialize_compressed"
   ],
   "note": "Model/Width has the functions that convert to usize or size a vector for any pointer width and any allocator; `Target.outcome` (Spec/Width) says what enlarging does. All other functions of the crate do not depend on the width. C76_deserialize_header, C76_deserialize_exact and C76_deserialize_compressed give the answer to every message on every target."
  },
  {
   "property": "C77",
   "status": "proved",
   "theorems": [
    "Hdr.C77_new",
    "Hdr.C77_operations",
    "Hdr.C77_serialize",
    "Hdr.C77_deserialize"
   ],
   "note": "Target.Wide: 32 bits or more and vectors of 256 MiB can be had. C79 says which other messages are treated alike."
  },
  {
   "property": "C78",
   "status": "partial",
   "theorems": [
    "Hdr.C78_new_exact",
    "Hdr.C78_grow_exact",
    "Hdr.C78_new_partial",
    "Hdr.C78_grow_partial",
    "Hdr.C78_refuted",
    "Hdr.C78_record_refuted",
    "Hdr.C78_error"
   ],
   "note": "Holds unless the length of the array is a usize but its size in bytes exceeds isize::MAX: then Vec panics with \"capacity overflow\" (C78_refuted, C78_record_refuted). C78_new_exact and C78_grow_exact give the outcome in every case."
  },
  {
   "property": "C79",
   "status": "partial",
   "theorems": [
    "Hdr.C79_deserialize_partial",
    "Hdr.C79_refuted",
    "Hdr.C79_announced_refuted",
    "Hdr.C79_exact"
   ],
   "note": "Holds for messages of at most 256 MiB whose numbers mean less than 2^32 counts; false beyond (C79_refuted: a run of 2^32 zeros; C79_announced_refuted: a header announcing 2^31 bytes panics). C79_exact: for every message that is not compressed, exactly when and how the answer differs; C76_deserialize_compressed reduces compressed ones to these."
  },
  {
   "property": "C80",
   "status": "proved",
   "theorems": [
    "Hdr.C80_query",
    "Hdr.C80_call",
    "Hdr.C80_program"
   ],
   "note": "both directions for every call (C80_query, C80_call) and for programs (C80_program); iter_quantiles assumes that log2 is accurate (Log2Law); usize has 64 bits"
  },
  {
   "property": "C81",
   "status": "proved",
   "theorems": [
    "Hdr.C81_call",
    "Hdr.C81_program",
    "Hdr.C81_until",
    "Hdr.C81_never_panics",
    "Hdr.C81_operators",
    "Hdr.C81_deserialize"
   ],
   "note": "Model/Release repeats every function that uses checked arithmetic, or calls one that does, with wrapping arithmetic and without debug assertions; Agrees is proved for each of them, then for every call and program (Spec/Release). The interval log and sync are not repeated."
  },
  {
   "property": "C82",
   "status": "proved",
   "theorems": [
    "Hdr.C82_value_at_quantile",
    "Hdr.C82_value_at_quantile_refuted",
    "Hdr.C82_iter_linear_refuted",
    "Hdr.C82_assertions",
    "Hdr.C82_arithmetic",
    "Hdr.C82_iter_linear"
   ],
   "note": "value_at_quantile exactly; iter_linear for every step (C82_iter_linear: never panics, ends, which levels, all samples counted) with the witness of 2^59 items derived by induction; the arguments' assertions; the wrapping operations themselves against Lean's fixed-width integers (C82_arithmetic)."
  },
  {
   "property": "C83",
   "status": "proved",
   "theorems": [
    "Hdr.C83_max"
   ],
   "note": "The number nom's double makes of a text with three decimals is a parameter with the law that it is the nearest f64 (NumLaw; satisfied by numValue)."
  },
  {
   "property": "C84",
   "status": "partial",
   "theorems": [
    "Hdr.C84_quantiles",
    "Hdr.C84_quantiles_end",
    "Hdr.C84_quantiles_last_partial",
    "Hdr.C84_refuted",
    "Hdr.C84_recorded",
    "Hdr.C84_all",
    "Hdr.C84_linear",
    "Hdr.C84_log",
    "Hdr.C84_quantiles_last_exact"
   ],
   "note": "Everything but the end of iter_quantiles is proved without conditions (iter_linear whenever it does not panic, C31 says when). With more than 2^53 samples the last item of iter_quantiles need not show the largest sample (C84_refuted); it is for quantile 1 and its total is that of all samples as far as f64 can tell (C84_quantiles_end). C84_quantiles_last_exact says which sample the last item shows, for any number of samples."
  },
  {
   "property": "C85",
   "status": "proved",
   "theorems": [
    "Hdr.Cli.C85_serialize",
    "Hdr.Cli.C85_accepts",
    "Hdr.Cli.C85_out_of_range",
    "Hdr.Cli.C85_quantiles",
    "Hdr.Cli.C85_pipeline",
    "Hdr.Cli.C85_empty",
    "Hdr.Cli.C85_overflow"
   ],
   "note": "assuming log2 is accurate (Log2Law) and Zlib.Lawful; TableOf, RowOf, Listing in Spec/Cli. C85_overflow: for histograms with more than 2^64 samples from elsewhere the sum over the rows overflows."
  },
  {
   "property": "C86",
   "status": "proved",
   "theorems": [
    "Hdr.V2.C86_chunk",
    "Hdr.V2.C86_length",
    "Hdr.V2.C86_refused",
    "Hdr.V2.C86_generated",
    "Hdr.V2.C86_all",
    "Hdr.V2.C86_never_max"
   ],
   "note": "C86_length, C86_refused: the two functions; C86_generated, C86_all, C86_never_max: the generator (finding 25). C86_chunk gives the helper for every group number."
  },
  {
   "property": "C87",
   "status": "proved",
   "theorems": [
    "Hdr.C87_percentile",
    "Hdr.C87_hundred"
   ],
   "note": "For any PickyIterator, via C58_running_sum_partial; len() equal to the sum of the counts means that no counter and no total has saturated."
  },
  {
   "property": "C88",
   "status": "partial",
   "theorems": [
    "Hdr.Err.C88_distinct",
    "Hdr.Err.C88_distinct_io",
    "Hdr.Err.C88_distinct_log",
    "Hdr.Err.C88_io_named",
    "Hdr.Err.C88_source",
    "Hdr.Err.C88_has_source",
    "Hdr.Err.C88_deflate_refuted",
    "Hdr.Err.C88_deflate_partial"
   ],
   "note": "Proved for all types but V2DeflateSerializeError, whose I/O errors read like failures of the underlying serialization, so that two different errors may have the same text (C88_deflate_refuted); C88_deflate_partial: those are the only ones."
  },
  {
   "property": "C89",
   "status": "proved",
   "theorems": [
    "Hdr.Log.C89_adds_up",
    "Hdr.Log.C89_adds_up_deflate"
   ],
   "note": "Conditions on comments and times are those of C43; no counter overflows, and values that a written histogram does not distinguish are not distinguished by the accumulator. Contains is defined in Spec/Samples, addUp and Written in Spec/LogTotal."
  },
  {
   "property": "C90",
   "status": "proved",
   "theorems": [
    "Hdr.Sync.C90_holds",
    "Hdr.Sync.C90_quantile",
    "Hdr.Sync.C90_interval"
   ],
   "note": "C90_holds: all recorders dropped, one more refresh; C90_interval: at any moment, with outdated phases, owner writes and resets; C90_quantile: the quantiles. For recordings; merging whole histograms through a recorder is covered for the counts by C47/C65."
  },
  {
   "property": "C91",
   "status": "proved",
   "theorems": [
    "Hdr.C91_same",
    "Hdr.C91_safe",
    "Hdr.C91_count",
    "Hdr.C91_returned",
    "Hdr.C91_hangs",
    "Hdr.C91_stuck"
   ],
   "note": "C91_same, C91_safe: same as the checked build where that does not panic; C91_count: the count modulo 2^64, no panic in drop and idle; C91_returned, C91_hangs: what a refresh without time limit needs; C91_stuck: the witness in which no thread can move any more."
  },
  {
   "property": "C92",
   "status": "proved",
   "theorems": [
    "Hdr.Err.C92_refused",
    "Hdr.Err.C92_accepted"
   ],
   "note": "CannotRepresentSigFigBeyondLow and UsizeTypeTooSmall state no number and are not covered (C01 says when they occur)."
  },
  {
   "property": "C93",
   "status": "proved",
   "theorems": [
    "Hdr.C93_ghost",
    "Hdr.C93_exactly_once",
    "Hdr.C93_panics",
    "Hdr.C93_lost",
    "Hdr.C93_sound",
    "Hdr.C93_progress",
    "Hdr.C93_poisoned",
    "Hdr.C93_poison_refuted",
    "Hdr.C93_missing",
    "Hdr.C93_counts",
    "Hdr.C93_refresh_refuted",
    "Hdr.C93_failed_merge",
    "Hdr.C93_drop_loses"
   ],
   "note": "C93_exactly_once (any histogram type, leaked guards allowed; C93_ghost: the lists of writes do not influence the run), C93_panics (exact condition), C93_lost, C93_sound, C93_progress; C93_poisoned for the state after a panic with the lock held, C93_poison_refuted shows that it is reached and that the condition on leaked guards in C93_sound is needed. A panic during unwinding (abort) is not followed. C93_missing: what a refresh that returns misses, without conditions. C93_counts: the counts of the merged and of the lost histograms, for recordings of any values. C93_refresh_refuted: after a caught panic a refresh may miss writes made before it began, as after a timeout. C93_failed_merge (a merge that panics leaves the merged histogram as it was) and C93_drop_loses (a recorder dropped with a poisoned mutex loses what it holds)."
  },
  {
   "property": "C94",
   "status": "proved",
   "theorems": [
    "Hdr.C94_missing",
    "Hdr.C94_count",
    "Hdr.C94_waits",
    "Hdr.C94_closed"
   ],
   "note": "C94_missing (exactly the unsent writes are missing when a refresh returns), C94_count (exact recorder count), C94_waits (when a waiting refresh can and cannot return), C94_closed (after the SyncHistogram was dropped). They extend C48_missing, C50_exact and C49_exact to executions with outdated loads and an active owner."
  },
  {
   "property": "C95",
   "status": "proved",
   "theorems": [
    "Hdr.Sync.C95_histograms",
    "Hdr.Sync.C95_panics_iff",
    "Hdr.Sync.C95_settings",
    "Hdr.Sync.C95_new_recorder",
    "Hdr.Sync.C95_auto_off_panics"
   ],
   "note": "exact in every case (C95_panics_iff, without leaked guards); C95_histograms: every histogram is Reachable; C95_settings and C95_new_recorder: settings of recorders; C95_auto_off_panics: turning auto-resize off while recorders exist makes the next refresh panic (finding 32)"
  },
  {
   "property": "C96",
   "status": "proved",
   "theorems": [
    "Hdr.Sync.C96_merged",
    "Hdr.Sync.C96_local"
   ],
   "note": "for arbitrary histogram operations: C96_merged (what is merged, in which order), C96_local (what a recorder holds and sends); executions in which the SyncHistogram is not dropped"
  },
  {
   "property": "C97",
   "status": "proved",
   "theorems": [
    "Hdr.C97_interchangeable",
    "Hdr.C97_iff",
    "Hdr.C97_read_back",
    "Hdr.C97_high_matters"
   ],
   "note": "C97_interchangeable for any number of histograms, C97_iff with the converse, C97_read_back for serialization; C97_high_matters: == alone does not suffice. Calls must type-check and name existing histograms (Fits); iterators are read to the end or for a given number of items. Debug build."
  },
  {
   "property": "C98",
   "status": "proved",
   "theorems": [
    "Hdr.C98_cut",
    "Hdr.C98_initial",
    "Hdr.C98_concat",
    "Hdr.C98_kept",
    "Hdr.C98_failing_writer"
   ],
   "note": "C98_cut (exact), C98_initial, C98_concat, C98_kept, C98_failing_writer. nom's double is a parameter with laws (Dbl.Lawful)."
  },
  {
   "property": "C99",
   "status": "proved",
   "theorems": [
    "Hdr.C99_read",
    "Hdr.C99_write",
    "Hdr.C99_write_deflate",
    "Hdr.Cli.C99_tool_serialize",
    "Hdr.Cli.C99_tool_table",
    "Hdr.Cli.C99_pipeline",
    "Hdr.Cli.C99_totals",
    "Hdr.Cli.C99_overflow"
   ],
   "note": "assuming Dbl.Lawful (str::parse::<f64>) and Zlib.Lawful. C99_overflow: for a histogram with more than 2^64 samples the checked build panics and the release build prints a sum that decreases."
  },
  {
   "property": "C100",
   "status": "partial",
   "theorems": [
    "Hdr.C100_order_partial",
    "Hdr.C100_answers",
    "Hdr.C100_saturating_refuted"
   ],
   "note": "The unrestricted claim fails with auto-resize on for a saturating call whose value is out of range (C100_saturating_refuted): it is clamped to high(), which grows with other recordings. C100_order_partial proves it in all other cases (auto-resize off: for all six methods without restriction); C100_answers says what each call returns."
  },
  {
   "property": "C101",
   "status": "proved",
   "theorems": [
    "Hdr.C101_record",
    "Hdr.C101_larger",
    "Hdr.C101_end_to_end"
   ],
   "note": "specRank_succ (Proofs/RankStep): one more sample moves the computed rank by 0 or 1, for every f64 quantile. C101_larger takes dominance of the cumulative counts; C101_end_to_end is the version from the constructors with lists of samples compared one by one."
  },
  {
   "property": "C102",
   "status": "partial",
   "theorems": [
    "Hdr.C102_merge_partial",
    "Hdr.C102_exact",
    "Hdr.C102_dyadic",
    "Hdr.C102_refuted",
    "Hdr.C102_below_refuted"
   ],
   "note": "False in general because of f64 rounding of q*n (C102_refuted: both answer 1, the sum 15; C102_below_refuted: both 15, the sum 1). Proved when the rank in the union is the sum of the ranks or one less (C102_merge_partial), in particular when rounding does not change the three ranks (C102_exact), as for all binary fractions (C102_dyadic)."
  },
  {
   "property": "C103",
   "status": "proved",
   "theorems": [
    "Hdr.C103_add",
    "Hdr.C103_quantile",
    "Hdr.C103_chain",
    "Hdr.C103_finer",
    "Hdr.C103_coarser"
   ],
   "note": "C103_add, C103_quantile, C103_chain (CopiedVia: each histogram was empty and the one before it was added). C103_finer and C103_coarser show that neither alternative can be left out. The copies must not saturate counters (at most T.max samples)."
  },
  {
   "property": "C104",
   "status": "proved",
   "theorems": [
    "Hdr.C104_same",
    "Hdr.C104_nested",
    "Hdr.C104_coarsen"
   ],
   "note": "C104_same needs Contains (no counter overflowed). max() and min_nz() are not among the answers: they can differ (C19_max, C36). C104_nested relates the configurations, C104_coarsen is the consequence for add."
  },
  {
   "property": "C105",
   "status": "proved",
   "theorems": [
    "Hdr.Sync.C105_shares",
    "Hdr.Log.C105_pipeline",
    "Hdr.Log.C105_pipeline_deflate"
   ],
   "note": "C105_shares: the histograms at the resets (atResets, Spec/Pipeline) and the last one share out all samples; C105_pipeline / C105_pipeline_deflate: logged with the V2 or V2+DEFLATE serializer, read back and added up, every sample is there once, with the quantile answers of C72. Conditions on comments and times as in C43, no counter overflows, no recording in the class of u64::MAX without auto-resize, no add/subtract through recorders."
  },
  {
   "property": "C106",
   "status": "proved",
   "theorems": [
    "Hdr.C106_recorded",
    "Hdr.C106_add_correct",
    "Hdr.C106_clone_correct",
    "Hdr.C106_no_less",
    "Hdr.C106_no_more",
    "Hdr.C106_largest",
    "Hdr.C106_same",
    "Hdr.C106_width"
   ],
   "note": "C106_recorded, C106_add_correct, C106_clone_correct: what the histograms hold; C106_no_less, C106_no_more, C106_largest, C106_width: the comparison; C106_same: equality for samples that are their own highest equivalent values. No counter overflows; no sample is u64::MAX (reported as u64::MAX - 1)."
  },
  {
   "property": "C107",
   "status": "partial",
   "theorems": [
    "Hdr.C107_near_partial",
    "Hdr.C107_iff",
    "Hdr.C107_pow2",
    "Hdr.C107_short",
    "Hdr.C107_last",
    "Hdr.C107_refuted",
    "Hdr.C107_refuted_below"
   ],
   "note": "False as stated, in both directions (C107_refuted: the answer is the next sample, C107_refuted_below: the one before), as a comment in quantile.rs expects. Proved: the answer is always the item's class or a neighbouring one that holds samples (C107_near_partial); exactly when it is the item's (C107_iff); and that it is for quantiles of few binary digits (C107_short), for the last item (C107_last), and when the number of samples is a power of two (C107_pow2). log2 is assumed accurate (Log2Law)."
  },
  {
   "property": "C108",
   "status": "proved",
   "theorems": [
    "Hdr.C108_recorded",
    "Hdr.C108_all",
    "Hdr.C108_quantiles",
    "Hdr.C108_linear",
    "Hdr.C108_log",
    "Hdr.C108_empty"
   ],
   "note": "iter_linear whenever it does not panic (C31 says when); log2 is assumed accurate for iter_quantiles (Log2Law). C108_empty shows that the histogram must not be empty: the items of iter_all then have the quantile NaN, quantile_below is 1."
  },
  {
   "property": "C109",
   "status": "proved",
   "theorems": [
    "Hdr.C109_mean",
    "Hdr.C109_stdev",
    "Hdr.C109_add"
   ],
   "note": "C109_mean and C109_stdev for any three histograms; C109_add for the histogram after add. From C52/C64 (error of mean and stdev) and the parallel-axis identity."
  },
  {
   "property": "C110",
   "status": "partial",
   "theorems": [
    "Hdr.C110_items",
    "Hdr.C110_rebuild",
    "Hdr.C110_rebuild_all",
    "Hdr.C110_equal_partial",
    "Hdr.C110_zero_refuted",
    "Hdr.C110_all_refuted"
   ],
   "note": "C110_rebuild and C110_rebuild_all: same configuration, counts, len and samples, always. C110_equal_partial: with no sample in the class of u64::MAX, the rebuilt histogram is == to the original exactly if the original's max() and min_nz() are those of its non-empty classes. False in general: C110_zero_refuted (unit above 1, only zeros), C110_all_refuted (iter_all records count 0, which moves max() and min_nz())."
  },
  {
   "property": "C111",
   "status": "proved",
   "theorems": [
    "Hdr.C111_reset",
    "Hdr.C111_set_to",
    "Hdr.C111_set_to_corrected",
    "Hdr.C111_set_to_samples",
    "Hdr.C111_set_to_corrected_samples",
    "Hdr.C111_new_iff",
    "Hdr.C111_as_new"
   ],
   "note": "C111_reset, C111_set_to, C111_set_to_corrected: equality of the whole state. C111_set_to_samples and C111_set_to_corrected_samples need that no counter overflows, and say what holds if the call succeeds (C22_set_to_outcome says when). C111_new_iff, C111_as_new compare a reset histogram with a new one."
  },
  {
   "property": "C112",
   "status": "proved",
   "theorems": [
    "Hdr.C112_split",
    "Hdr.C112_split_saturating",
    "Hdr.C112_times",
    "Hdr.C112_split_correct",
    "Hdr.C112_exchange",
    "Hdr.C112_zero_matters",
    "Hdr.C112_top_matters"
   ],
   "note": "C112_split, C112_split_saturating, C112_split_correct and C112_times give identical states; C112_exchange gives states that are Alike, the notion C97 proves indistinguishable. The class of u64::MAX is excluded as a whole. C112_zero_matters and C112_top_matters: the exceptions are real."
  },
  {
   "property": "C113",
   "status": "proved",
   "theorems": [
    "Hdr.C113_size",
    "Hdr.C113_samples"
   ],
   "note": "C113_size by class, C113_samples by sample."
  },
  {
   "property": "C114",
   "status": "partial",
   "theorems": [
    "Hdr.C114_subtract_partial",
    "Hdr.C114_refuted",
    "Hdr.C114_snapshot"
   ],
   "note": "C114_subtract_partial tells exactly when the statistics of a non-empty difference are exact, for a maximum below the class of u64::MAX: a sample equivalent to min() or max() was taken, or the total was saturated, or the class of min_nz() is not emptied. Otherwise only min_nz() is wrong, and it is the old one (C114_refuted: finding 41). C114_snapshot: the difference to a snapshot holds exactly the samples recorded since. Missing: differences that are empty, or with samples in the class of u64::MAX (C17, C20)."
  },
  {
   "property": "C115",
   "status": "proved",
   "theorems": [
    "Hdr.C115_add",
    "Hdr.C115_undo"
   ],
   "note": "C115_add: exactness is kept. C115_undo: (a + b) - b == a, as an equivalence; C114_refuted is a pair for which it fails."
  },
  {
   "property": "C116",
   "status": "proved",
   "theorems": [
    "Hdr.C116_same",
    "Hdr.C116_merge",
    "Hdr.C116_sum"
   ],
   "note": "C116_same: same samples and exact statistics suffice (Alike is the relation of C97). C116_merge: merging against recording directly; C116_sum: any number of parts through iter::Sum."
  },
  {
   "property": "C117",
   "status": "proved",
   "theorems": [
    "Hdr.C117_collect",
    "Hdr.C117_mixed"
   ],
   "note": "C117_collect: V2; C117_mixed: V2 and V2+DEFLATE in any mixture, given a correct zlib. C116_sum is the version without the wire. The exclusions are the quirks of C36 and C17: maximum in the class of u64::MAX, zeros with a unit above 1."
  },
  {
   "property": "C118",
   "status": "proved",
   "theorems": [
    "Hdr.C118_interchangeable",
    "Hdr.C118_iff",
    "Hdr.C118_builds"
   ],
   "note": "C118_interchangeable and C118_iff, C97 for Build.release. C118_builds: the same histograms are interchangeable in both builds. Calls for which a debug build does not panic are those of C97 by C81; the others (quantiles, iterators, mean, standard deviation) are shown to depend on max() but not on the raw statistics."
  },
  {
   "property": "C119",
   "status": "proved",
   "theorems": [
    "Hdr.C119_order",
    "Hdr.C119_group",
    "Hdr.C119_top_matters"
   ],
   "note": "C119_order: any order, and the contents of the sum; C119_group: any grouping. C119_top_matters: with a sample in the class of u64::MAX the order decides whether summing up panics."
  },
  {
   "property": "C120",
   "status": "proved",
   "theorems": [
    "Hdr.Sync.C120_alike",
    "Hdr.Sync.C120_interval",
    "Hdr.Sync.C120_owner"
   ],
   "note": "C120_alike: the merged histogram is == to, and Alike (C97), the one recorded by one thread in any order; C120_owner: with outdated loads and an owner who records; C120_interval: at any moment, with resets. Refused recordings leave no sample on either side (Write.samples). Rests on recordSeq_keeps_exact: recording keeps exact statistics exact."
  },
  {
   "property": "C121",
   "status": "proved",
   "theorems": [
    "Hdr.C121_grown",
    "Hdr.C121_two",
    "Hdr.C121_steps"
   ],
   "note": "C121_grown: against recording one by one; C121_two: two ways; C121_steps: no call fails. A correct zlib is assumed (Zlib.Lawful, as in C42). Subtract is not among the calls: it does not always keep the statistics exact (C115_undo says when)."
  }
 ]
}