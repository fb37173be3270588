{
 "claims": [
  {
   "property": "C01",
   "status": "proved",
   "theorems": [
    "Chrono.C01_add_table"
   ],
   "note": ""
  },
  {
   "property": "C02",
   "status": "proved",
   "theorems": [
    "Chrono.C02_add_comm",
    "Chrono.C02_add_mono",
    "Chrono.C02_add_zero",
    "Chrono.C02_sum_exact"
   ],
   "note": ""
  },
  {
   "property": "C03",
   "status": "proved",
   "theorems": [
    "Chrono.C03_neg",
    "Chrono.C03_add_sub_cancel",
    "Chrono.C03_ts_sub_add",
    "Chrono.C03_operators"
   ],
   "note": ""
  },
  {
   "property": "C04",
   "status": "proved",
   "theorems": [
    "Chrono.C04_neighbours",
    "Chrono.C04_inverse"
   ],
   "note": ""
  },
  {
   "property": "C05",
   "status": "partial",
   "theorems": [
    "Chrono.C05_arith_legal_partial",
    "Chrono.C05_from_secs_legal_partial",
    "Chrono.C05_from_secs_violated",
    "Chrono.C05_from_secs_exact_partial",
    "Chrono.C05_units_exact_partial",
    "Chrono.C05_fract_exact_partial",
    "Chrono.C05_fract_release_partial"
   ],
   "note": "Decided exactly: every count gives a legal duration, except the negative ones whose (whole, not saturated) number of seconds is 2^33 modulo 2^34; those give i64::MIN or panic. In a release build, what panics in a debug build gives a positive duration for a negative count (C05_fract_release_partial)."
  },
  {
   "property": "C06",
   "status": "partial",
   "theorems": [
    "Chrono.C06_from_secs_partial",
    "Chrono.C06_units_partial",
    "Chrono.C06_from_secs_violated",
    "Chrono.C06_below_exact"
   ],
   "note": "violated below -MAX_SEC (wraps); proved in range and above What a count below the range gives is decided exactly (C06_below_exact): from_secs wraps modulo 2^64 ticks, the longer units give 0."
  },
  {
   "property": "C07",
   "status": "proved",
   "theorems": [
    "Chrono.C07_subsec",
    "Chrono.C07_mono_odd",
    "Chrono.C07_underflow_violated"
   ],
   "note": "C07_underflow_violated concerns inputs outside the stated range. The clamping to -oo is violated in general: no count below the range gives -oo (C07_underflow_violated)."
  },
  {
   "property": "C08",
   "status": "proved",
   "theorems": [
    "Chrono.C08_decompose"
   ],
   "note": ""
  },
  {
   "property": "C09",
   "status": "proved",
   "theorems": [
    "Chrono.C09_std_roundtrip",
    "Chrono.C09_std_negative",
    "Chrono.C09_chrono_overflow",
    "Chrono.C09_chrono_roundtrip"
   ],
   "note": ""
  },
  {
   "property": "C10",
   "status": "proved",
   "theorems": [
    "Chrono.C10_floor",
    "Chrono.C10_floor_idem"
   ],
   "note": ""
  },
  {
   "property": "C11",
   "status": "partial",
   "theorems": [
    "Chrono.C11_ceil_positive_partial",
    "Chrono.C11_ceil_nonpositive_partial",
    "Chrono.C11_ceil_violated"
   ],
   "note": "violated: ceil of non-positive multiples and of negatives; proved for positive durations. ceil is wrong for every non-positive duration one tick above a multiple of the period (C11_ceil_violated)."
  },
  {
   "property": "C12",
   "status": "partial",
   "theorems": [
    "Chrono.C12_trunc_nonneg_partial",
    "Chrono.C12_trunc_neg_partial",
    "Chrono.C12_secs_partial",
    "Chrono.C12_violated"
   ],
   "note": "violated: months() uses the year length, nanos() of negatives loses a tick, secs() floors; other units proved. The violations are general: months is years for every duration, nanos is off by one for every negative one."
  },
  {
   "property": "C13",
   "status": "partial",
   "theorems": [
    "Chrono.C13_mul_small_partial",
    "Chrono.C13_mul_inf",
    "Chrono.C13_mul_big_partial",
    "Chrono.C13_mul_big_violated"
   ],
   "note": "violated for the 128-bit/unsigned multipliers with a huge factor; small multipliers proved"
  },
  {
   "property": "C14",
   "status": "partial",
   "theorems": [
    "Chrono.C14_div_finite_partial",
    "Chrono.C14_div_exact",
    "Chrono.C14_div_inf_violated"
   ],
   "note": "violated: an infinite duration divided is finite; finite durations proved Division is decided exactly for every legal duration and integer type (C14_div_exact): the infinities are divided as tick counts."
  },
  {
   "property": "C15",
   "status": "proved",
   "theorems": [
    "Chrono.C15_dates",
    "Chrono.C15_wellformed",
    "Chrono.C15_is_empty"
   ],
   "note": ""
  },
  {
   "property": "C16",
   "status": "partial",
   "theorems": [
    "Chrono.C16_is_empty_exact",
    "Chrono.C16_dates",
    "Chrono.C16_predicates_partial",
    "Chrono.C16_predicates_violated"
   ],
   "note": "predicates violated for ranges touching an infinity. C16_is_empty_exact decides is_empty outright, with and without dates."
  },
  {
   "property": "C17",
   "status": "proved",
   "theorems": [
    "Chrono.C17_inter"
   ],
   "note": ""
  },
  {
   "property": "C18",
   "status": "partial",
   "theorems": [
    "Chrono.C18_is_empty_partial",
    "Chrono.C18_inter_violated"
   ],
   "note": "violated: intersection of disjoint intervals yields crossed bounds that is_empty does not see"
  },
  {
   "property": "C19",
   "status": "proved",
   "theorems": [
    "Chrono.C19_union"
   ],
   "note": ""
  },
  {
   "property": "C20",
   "status": "proved",
   "theorems": [
    "Chrono.C20_compl",
    "Chrono.C20_point_compl"
   ],
   "note": ""
  },
  {
   "property": "C21",
   "status": "proved",
   "theorems": [
    "Chrono.C21_truncate"
   ],
   "note": ""
  },
  {
   "property": "C22",
   "status": "proved",
   "theorems": [
    "Chrono.C22_add_span",
    "Chrono.C22_neg",
    "Chrono.C22_sub_span",
    "Chrono.C22_translate",
    "Chrono.C22_timestamp_forms"
   ],
   "note": ""
  },
  {
   "property": "C23",
   "status": "partial",
   "theorems": [
    "Chrono.C23_disjoint_violated",
    "Chrono.C23_predicates_partial",
    "Chrono.C23_range_singleton",
    "Chrono.C23_empty_violated",
    "Chrono.C23_ranges"
   ],
   "note": "violated on the empty interval; proved on every non-empty one. C23_disjoint_violated generalises the violation."
  },
  {
   "property": "C24",
   "status": "proved",
   "theorems": [
    "Chrono.C24_centered",
    "Chrono.C24_enlarge",
    "Chrono.C24_shrink"
   ],
   "note": ""
  },
  {
   "property": "C25",
   "status": "partial",
   "theorems": [
    "Chrono.C25_contains_exact",
    "Chrono.C25_overlaps_exact",
    "Chrono.C25_contains_partial",
    "Chrono.C25_overlaps_partial",
    "Chrono.C25_overlaps_symm",
    "Chrono.C25_violated"
   ],
   "note": "violated when an empty interval is involved or a bound sits next to an infinity; proved otherwise. C25_contains_exact and C25_overlaps_exact decide both answers outright for every pair of windows."
  },
  {
   "property": "C26",
   "status": "proved",
   "theorems": [
    "Chrono.C26_duration"
   ],
   "note": ""
  },
  {
   "property": "C27",
   "status": "proved",
   "theorems": [
    "Chrono.C27_compl"
   ],
   "note": ""
  },
  {
   "property": "C28",
   "status": "proved",
   "theorems": [
    "Chrono.C28_double_compl"
   ],
   "note": ""
  },
  {
   "property": "C29",
   "status": "proved",
   "theorems": [
    "Chrono.C29_union_sound",
    "Chrono.C29_union_convex_sound"
   ],
   "note": ""
  },
  {
   "property": "C30",
   "status": "partial",
   "theorems": [
    "Chrono.C30_union_complete_partial",
    "Chrono.C30_union_violated",
    "Chrono.C30_union_exact",
    "Chrono.C30_lossless_exact",
    "Chrono.C30_union_convex_partial",
    "Chrono.C30_one_order",
    "Chrono.C30_union_convex_exact"
   ],
   "note": "violated: the union iterator drops the tail of the left operand when the right operand ends first. Decided exactly: C30_union_exact says which intervals two sets keep (ties of ends included), C30_lossless_exact when nothing is lost, C30_union_convex_exact what a set and a window keep; of a | b and b | a, one at least is complete"
  },
  {
   "property": "C31",
   "status": "proved",
   "theorems": [
    "Chrono.C31_union_canonical",
    "Chrono.C31_union_convex_canonical",
    "Chrono.C31_from_sets_canonical"
   ],
   "note": ""
  },
  {
   "property": "C32",
   "status": "proved",
   "theorems": [
    "Chrono.C32_inter",
    "Chrono.C32_inter_convex"
   ],
   "note": ""
  },
  {
   "property": "C33",
   "status": "partial",
   "theorems": [
    "Chrono.C33_inter_canonical_partial",
    "Chrono.C33_inter_exact",
    "Chrono.C33_inter_violated",
    "Chrono.C33_inter_touch_violated"
   ],
   "note": "decided exactly: the intersection is canonical iff no interval of one set starts right after the end of an interval of the other (C33_inter_exact); violated in that case (spurious dateless interval)"
  },
  {
   "property": "C34",
   "status": "proved",
   "theorems": [
    "Chrono.C34_set_eq",
    "Chrono.C34_iv_set_eq"
   ],
   "note": ""
  },
  {
   "property": "C35",
   "status": "partial",
   "theorems": [
    "Chrono.C35_contains_exact",
    "Chrono.C35_contains_empty_exact",
    "Chrono.C35_contains_set_exact",
    "Chrono.C35_convex_contains_set_exact",
    "Chrono.C35_contains_partial",
    "Chrono.C35_contains_set_partial",
    "Chrono.C35_convex_contains_set_partial",
    "Chrono.C35_violated"
   ],
   "note": "decided exactly: C35_contains_exact, C35_contains_empty_exact, C35_contains_set_exact, C35_convex_contains_set_exact; the English property is violated for empty windows and next to an infinity"
  },
  {
   "property": "C36",
   "status": "partial",
   "theorems": [
    "Chrono.C36_overlaps_exact",
    "Chrono.C36_overlaps_partial",
    "Chrono.C36_overlaps_set",
    "Chrono.C36_violated"
   ],
   "note": "decided exactly by C36_overlaps_exact; the English property is violated when the window is empty"
  },
  {
   "property": "C37",
   "status": "proved",
   "theorems": [
    "Chrono.C37_truncate_before",
    "Chrono.C37_truncate_after",
    "Chrono.C37_inter_assign",
    "Chrono.C37_truncate_infinite_violated"
   ],
   "note": "proved for the finite cut points the property ranges over; the _violated theorem says what happens for infinite ones, for every set"
  },
  {
   "property": "C38",
   "status": "partial",
   "theorems": [
    "Chrono.C38_collect_left",
    "Chrono.C38_lossless_exact",
    "Chrono.C38_collect_sets_violated",
    "Chrono.C38_collect_decreasing_violated",
    "Chrono.C38_collect_partial",
    "Chrono.C38_collect_sets_partial",
    "Chrono.C38_collect_sound_partial",
    "Chrono.C38_collect_exact",
    "Chrono.C38_collect_violated",
    "Chrono.C38_collect_empty_violated"
   ],
   "note": "violated for unsorted intervals (union bug), and for empty intervals after a non-empty one, both in general; of a decreasing sequence only the last two intervals are collected. Decided exactly for every list: C38_collect_left says which dates are left, C38_lossless_exact when nothing is lost."
  },
  {
   "property": "C39",
   "status": "proved",
   "theorems": [
    "Chrono.C39_neg"
   ],
   "note": ""
  },
  {
   "property": "C40",
   "status": "proved",
   "theorems": [
    "Chrono.C40_add",
    "Chrono.C40_sub",
    "Chrono.C40_timestamp"
   ],
   "note": ""
  },
  {
   "property": "C41",
   "status": "proved",
   "theorems": [
    "Chrono.C41_add_span",
    "Chrono.C41_sub_span"
   ],
   "note": ""
  },
  {
   "property": "C42",
   "status": "partial",
   "theorems": [
    "Chrono.C42_add_spans_exact",
    "Chrono.C42_sub_spans_exact",
    "Chrono.C42_sub_spans_violated",
    "Chrono.C42_add_spans_sound_partial",
    "Chrono.C42_add_spans_partial",
    "Chrono.C42_convex_operand_partial",
    "Chrono.C42_sub_spans_sound_partial",
    "Chrono.C42_violated"
   ],
   "note": "violated: sums are collected in an order that loses points, for every interleaving pair and triple (C42_violated); a bounded interval minus spans far apart keeps the last two spans only (C42_sub_spans_violated). Decided exactly for all operands without overflow: C42_add_spans_exact, C42_sub_spans_exact say which dates are left."
  },
  {
   "property": "C43",
   "status": "partial",
   "theorems": [
    "Chrono.C43_mul_partial",
    "Chrono.C43_violated"
   ],
   "note": "violated for every non-empty set and every factor beyond i64 (128-bit scale type): a panic; proved within"
  },
  {
   "property": "C44",
   "status": "partial",
   "theorems": [
    "Chrono.C44_mul_zero_partial",
    "Chrono.C44_violated"
   ],
   "note": "violated for every non-empty set: the product by 0 is a set holding one empty interval"
  },
  {
   "property": "C45",
   "status": "proved",
   "theorems": [
    "Chrono.C45_div"
   ],
   "note": ""
  },
  {
   "property": "C46",
   "status": "proved",
   "theorems": [
    "Chrono.C46_compl_iter"
   ],
   "note": ""
  },
  {
   "property": "C47",
   "status": "proved",
   "theorems": [
    "Chrono.C47_exclusion"
   ],
   "note": ""
  },
  {
   "property": "C48",
   "status": "partial",
   "theorems": [
    "Chrono.C48_any_chain_partial",
    "Chrono.C48_violated",
    "Chrono.C48_chain"
   ],
   "note": "The README pipelines on all canonical sets; any chain whose intersections do not touch, whose translations and scalings do not overflow and whose factors are positive. Violated for all intervals that touch: !(i & j) is not what the lazy complement of the intersection collects to."
  },
  {
   "property": "C49",
   "status": "proved",
   "theorems": [
    "Chrono.C49_eq_exact",
    "Chrono.C49_lt",
    "Chrono.C49_eq",
    "Chrono.C49_partial_cmp",
    "Chrono.C49_strict_order"
   ],
   "note": ""
  },
  {
   "property": "C50",
   "status": "partial",
   "theorems": [
    "Chrono.C50_bounds",
    "Chrono.C50_predicates",
    "Chrono.C50_convex_count",
    "Chrono.C50_is_all_partial",
    "Chrono.C50_is_all_violated"
   ],
   "note": "is_all is violated by the empty set, which claims to contain every date; everything else proved"
  },
  {
   "property": "C51",
   "status": "proved",
   "theorems": [
    "Chrono.C51_union_fused",
    "Chrono.C51_inter_fused",
    "Chrono.C51_compl_fused"
   ],
   "note": ""
  },
  {
   "property": "C52",
   "status": "partial",
   "theorems": [
    "Chrono.C52_pipeline_partial",
    "Chrono.C52_plain_pipeline",
    "Chrono.C52_pipeline_violated",
    "Chrono.C52_new_pipeline",
    "Chrono.C52_inter_hint",
    "Chrono.C52_union_hint_partial",
    "Chrono.C52_compl_hint_partial",
    "Chrono.C52_union_violated",
    "Chrono.C52_compl_violated"
   ],
   "note": "Lower bounds and intersections: all states. Violated: the upper bounds of the union and of the complement are too small in every state described by C52_union_violated and C52_compl_violated; proved otherwise. A new pipeline of any depth announces right bounds (C52_new_pipeline). At any point of any pipeline the lower bound is right and the upper bound is short by at most the number of unions and complements (C52_pipeline_partial), a bound that is reached (C52_pipeline_violated); without them both bounds are right (C52_plain_pipeline)."
  },
  {
   "property": "C53",
   "status": "partial",
   "theorems": [
    "Chrono.C53_forward_partial",
    "Chrono.C53_accepted",
    "Chrono.C53_violated"
   ],
   "note": "violated for starts within one period of the beginning of time (constructor panics); proved otherwise"
  },
  {
   "property": "C54",
   "status": "partial",
   "theorems": [
    "Chrono.C54_forward_partial",
    "Chrono.C54_forward_violated",
    "Chrono.C54_backward_partial",
    "Chrono.C54_backward_violated"
   ],
   "note": "violated (operator precedence, off by one): exact characterisation of the states in which len is right and wrong"
  },
  {
   "property": "C55",
   "status": "partial",
   "theorems": [
    "Chrono.C55_nth_beyond_partial",
    "Chrono.C55_violated",
    "Chrono.C55_backward_violated",
    "Chrono.C55_exact_partial",
    "Chrono.C55_backward_exact_partial"
   ],
   "note": "Decided exactly: nth(n) agrees with n+1 calls of next() iff n is beyond the remaining length; violated for every element (it behaves like n calls)."
  },
  {
   "property": "C56",
   "status": "partial",
   "theorems": [
    "Chrono.C56_backward_partial",
    "Chrono.C56_accepted",
    "Chrono.C56_violated"
   ],
   "note": "violated for every start: the first element is start-2*period; the rest of the behaviour proved"
  },
  {
   "property": "C57",
   "status": "partial",
   "theorems": [
    "Chrono.C57_forward_periods_partial",
    "Chrono.C57_violated"
   ],
   "note": "Violated exactly where Timestamp::ceil is: non-positive starts with start-1 a multiple of the period; proved otherwise."
  },
  {
   "property": "C58",
   "status": "proved",
   "theorems": [
    "Chrono.C58_cells_injective",
    "Chrono.C58_cells_cover",
    "Chrono.C58_write_read",
    "Chrono.C58_resize"
   ],
   "note": "Cells of distinct pairs never collide, every allocated cell is used, a write is read back; growing and shrinking keep the spans."
  },
  {
   "property": "C59",
   "status": "proved",
   "theorems": [
    "Chrono.C59_operation",
    "Chrono.C59_history",
    "Chrono.C59_start",
    "Chrono.C59_queries",
    "Chrono.C59_limit",
    "Chrono.C59_clean",
    "Chrono.C59_tidy"
   ],
   "note": "Histories of propagate, extend, merge, resize, reset, shrink_to_fit with arbitrary bounds: the only possible panic is the sum of opposite infinities. Queries never panic. Limit at 65535 instants proved sharp."
  },
  {
   "property": "C60",
   "status": "proved",
   "theorems": [
    "Chrono.C60_unchanged_iff",
    "Chrono.C60_unchanged_any_bounds"
   ],
   "note": "On a minimal graph whatever the bounds are (any_bounds); that the call returns without panic is proved for bounds at most B, 9\u00b7B < 2^63-1."
  },
  {
   "property": "C61",
   "status": "proved",
   "theorems": [
    "Chrono.C61_recovered_iff",
    "Chrono.C61_empty_rejected",
    "Chrono.C61_empty_window",
    "Chrono.C61_recovered_any_bounds"
   ],
   "note": "On a minimal graph whatever the bounds are (any_bounds); that the call returns without panic is proved for bounds at most B, 9\u00b7B < 2^63-1. An empty constraint is always rejected."
  },
  {
   "property": "C62",
   "status": "partial",
   "theorems": [
    "Chrono.C62_window_constraint",
    "Chrono.C62_window_usable",
    "Chrono.C62_solutions",
    "Chrono.C62_solutions_growth",
    "Chrono.C62_self_violated",
    "Chrono.C62_any_bounds"
   ],
   "note": "Exact solutions in place and on growth; with any bounds and on any graph, exact for the solutions with representable delays, and no panic if there is one (any_bounds). Violated only for a constraint from a new instant to itself: every such one without 0 is accepted, on every graph."
  },
  {
   "property": "C63",
   "status": "proved",
   "theorems": [
    "Chrono.C63_history",
    "Chrono.C63_any_bounds",
    "Chrono.C63_from_minimal"
   ],
   "note": "Minimality: any number of calls, bounds at most W with 3\u00b7n\u00b7W < 2^63-1. With any bounds, from any state and with growth: exactly the representable solutions of the accepted constraints, and no panic if all can be satisfied (any_bounds)."
  },
  {
   "property": "C64",
   "status": "partial",
   "theorems": [
    "Chrono.C64_growth_partial",
    "Chrono.C64_exact_partial",
    "Chrono.C64_exact_reverse_partial",
    "Chrono.C64_deduction_violated",
    "Chrono.C64_growth_violated"
   ],
   "note": "Growth keeps the exact solutions but does not deduce: the grown graph is minimal iff nothing is to be deduced (C64_exact), violated for every graph and constraint with a deduction."
  },
  {
   "property": "C65",
   "status": "partial",
   "theorems": [
    "Chrono.C65_any_bounds",
    "Chrono.C65_contradiction",
    "Chrono.C65_contradicts_graph",
    "Chrono.C65_empty_panics_violated",
    "Chrono.C65_extend",
    "Chrono.C65_single",
    "Chrono.C65_empty_interval_violated"
   ],
   "note": "Minimality: bounds at most W with 3\u00b7n\u00b7W < 2^63-1; with any bounds, exactly the representable solutions (any_bounds), and what contradicts a bound of the batch or of the graph between two instants is never accepted (contradiction, contradicts_graph). For iterators not announcing at most one item (otherwise extend is propagate). Violated by the empty interval in a batch: on every new graph of at least three instants, panic instead of Err(Fatal)."
  },
  {
   "property": "C66",
   "status": "partial",
   "theorems": [
    "Chrono.C66_fatal_partial",
    "Chrono.C66_propagate_never_fatal",
    "Chrono.C66_stale_violated"
   ],
   "note": "After Err(Fatal) nothing can be read and reset/resize(0) give a new graph; violated otherwise: the old bounds reappear when the graph grows."
  },
  {
   "property": "C67",
   "status": "proved",
   "theorems": [
    "Chrono.C67_any_bounds",
    "Chrono.C67_contradiction",
    "Chrono.C67_merge",
    "Chrono.C67_unchanged",
    "Chrono.C67_symmetric"
   ],
   "note": "Minimality: bounds at most W with 3\u00b7n\u00b7W < 2^63-1; with any bounds, exactly the representable common solutions (any_bounds). C67_unchanged decides when a merge answers Unchanged. Two graphs that leave no common delay between two instants are never merged, whatever the bounds (contradiction)."
  },
  {
   "property": "C68",
   "status": "proved",
   "theorems": [
    "Chrono.C68_order",
    "Chrono.C68_extend_order"
   ],
   "note": "Bounds at most W with 3\u00b7n\u00b7W < 2^63-1; permutations of propagate, extend against propagate, and permutations of extend."
  },
  {
   "property": "C69",
   "status": "proved",
   "theorems": [
    "Chrono.C69_instant_cmp",
    "Chrono.C69_out_of_range",
    "Chrono.C69_are_distinct"
   ],
   "note": "On minimal graphs, in and out of range."
  },
  {
   "property": "C70",
   "status": "proved",
   "theorems": [
    "Chrono.C70_antisymmetric",
    "Chrono.C70_constraint",
    "Chrono.C70_to_tuple",
    "Chrono.C70_equiv",
    "Chrono.C70_equiv_sound"
   ],
   "note": "All graphs; equiv between two distinct instants."
  },
  {
   "property": "C71",
   "status": "proved",
   "theorems": [
    "Chrono.C71_iter"
   ],
   "note": "All graphs of at most 65535 instants."
  },
  {
   "property": "C72",
   "status": "partial",
   "theorems": [
    "Chrono.C72_from_partial",
    "Chrono.C72_out_of_range",
    "Chrono.C72_to",
    "Chrono.C72_first_violated"
   ],
   "note": "Every constrained pair is yielded once; violated: the pair (i,0) is always yielded first, even if it is not constrained or i=0."
  },
  {
   "property": "C73",
   "status": "proved",
   "theorems": [
    "Chrono.C73_rebuild"
   ],
   "note": "extend of with_size(n) and FromIterator; bounds at most W with 3\u00b7n\u00b7W < 2^63-1."
  },
  {
   "property": "C74",
   "status": "proved",
   "theorems": [
    "Chrono.C74_reset",
    "Chrono.C74_resize",
    "Chrono.C74_grow",
    "Chrono.C74_shrink"
   ],
   "note": "All graphs; resize for graphs without hidden constraints (kept by all operations except a fatal failure, C59_clean)."
  },
  {
   "property": "C75",
   "status": "partial",
   "theorems": [
    "Chrono.C75_reached_partial",
    "Chrono.C75_reached_remove_partial",
    "Chrono.C75_reached_clean_partial",
    "Chrono.C75_reached_clean_remove_partial",
    "Chrono.C75_reached_violated",
    "Chrono.C75_untouched",
    "Chrono.C75_unknown",
    "Chrono.C75_unchanged",
    "Chrono.C75_recovered_partial",
    "Chrono.C75_remove",
    "Chrono.C75_violated"
   ],
   "note": "Every canonical schedule and proper window. Violated: every empty range or interval on an unconstrained instant is accepted as Propagated and empties the schedule. After any history of requests (C75_reached_partial) Unchanged and Recovered are still truthful, but an instant whose slots show an interval [c, c-1] without a date accepts [c-1, c] although it has no date there, and is left without one (C75_reached_violated); without such an interval the answers are exact (C75_reached_clean_partial). C75_reached_remove_partial and C75_reached_clean_remove_partial are the same for remove."
  },
  {
   "property": "C76",
   "status": "partial",
   "theorems": [
    "Chrono.C76_debug_exact",
    "Chrono.C76_remove_debug_exact",
    "Chrono.C76_history",
    "Chrono.C76_call",
    "Chrono.C76_debug_partial",
    "Chrono.C76_debug_violated"
   ],
   "note": "Any history of retain and remove with any windows, bounds W + n\u00b7B < 2^63-1; release builds always return. Violated in debug builds only: removing the last dates of instant 0 fails a debug assertion. When a set or a removal fails the debug assertion is decided (C76_debug_exact, C76_remove_debug_exact): iff it is accepted, is side by side with (for remove: ends or starts with) an interval of the slots, and the instant is 0 or at a fixed delay from another."
  },
  {
   "property": "C77",
   "status": "partial",
   "theorems": [
    "Chrono.C77_retain_exact",
    "Chrono.C77_remove_exact",
    "Chrono.C77_pieces",
    "Chrono.C77_clean",
    "Chrono.C77_history",
    "Chrono.C77_shrinks",
    "Chrono.C77_retain_partial",
    "Chrono.C77_remove_partial",
    "Chrono.C77_violated"
   ],
   "note": "No date is added and all accepted windows hold after any history; exactness of the propagation proved when windows do not touch the slots, violated otherwise (remove keeps unsupported dates of other instants). What sets and removals keep is decided exactly (C77_retain_exact, C77_remove_exact): besides the supported dates, those at an allowed delay from both sides of a point where the slots and the set are side by side. After any history, the rule is decided too (C77_pieces): the only unsupported dates kept are those reached from both ends of an interval [c, c-1] left in the slots, and there are none when the slots show no such interval (C77_clean)."
  },
  {
   "property": "C78",
   "status": "partial",
   "theorems": [
    "Chrono.C78_history_partial",
    "Chrono.C78_extends_partial",
    "Chrono.C78_next_partial",
    "Chrono.C78_empty_violated"
   ],
   "note": "Histories of retain (non-empty intervals, dates, ranges), set_deadline and set_startline on minimal graphs, W + 2B < 2^63-1, debug and release builds: slots characterise exactly the assignments allowed, every date extends to one, the next call is refused iff no assignment is left. Violated by every empty range on an unconstrained instant of every graph (accepted)."
  },
  {
   "property": "C79",
   "status": "partial",
   "theorems": [
    "Chrono.C79_reached_deadline_partial",
    "Chrono.C79_reached_startline_partial",
    "Chrono.C79_reached_violated",
    "Chrono.C79_deadline_partial",
    "Chrono.C79_startline_partial",
    "Chrono.C79_violated",
    "Chrono.C79_deadline_unchanged",
    "Chrono.C79_startline_unchanged"
   ],
   "note": "Same histories, finite dates and the neutral infinity. Violated by set_deadline(-oo) and set_startline(+oo): accepted with all slots emptied (debug assertion in debug builds). The deadline -oo is never refused while the slots are unbounded (C79_violated, any schedule). When set_deadline and set_startline answer Ok(Unchanged) is decided (C79_deadline_unchanged, C79_startline_unchanged). The reached_ theorems hold after histories with any windows and sets: Ok leaves no date on the wrong side, Err(Recovered) changes nothing and is only said when some instant has no date on the right side; but it is not always said then (C79_reached_violated): slots which begin with an interval without a date hide it, and the deadline is accepted and leaves the instant without a date."
  },
  {
   "property": "C80",
   "status": "proved",
   "theorems": [
    "Chrono.C80_bounds",
    "Chrono.C80_latest_beginning",
    "Chrono.C80_earliest_ending"
   ],
   "note": "C80_bounds covers all schedules; the dates behind the bounds are described for canonical ones."
  },
  {
   "property": "C81",
   "status": "partial",
   "theorems": [
    "Chrono.C81_words",
    "Chrono.C81_others",
    "Chrono.C81_text_determines",
    "Chrono.C81_reduced_partial",
    "Chrono.C81_violated"
   ],
   "note": "Value, order, sign and infinities proved for every duration, and that the text determines the duration to one tick; the counts are below the next unit except when the sub-second part is exactly 1 ms or ends with 1000 ns. Violated there: 1 ms is printed 1000us. The violation is general: every rest of exactly one millisecond or one microsecond is written as 1000us or 1000ns."
  },
  {
   "property": "C82",
   "status": "proved",
   "theorems": [
    "Chrono.C82_sets",
    "Chrono.C82_timestamp_sets",
    "Chrono.C82_values",
    "Chrono.C82_shape"
   ],
   "note": "All durations, timestamps and canonical sets of both, the empty one included."
  },
  {
   "property": "C83",
   "status": "partial",
   "theorems": [
    "Chrono.C83_exact",
    "Chrono.C83_set_exact",
    "Chrono.C83_interval_partial",
    "Chrono.C83_set_partial",
    "Chrono.C83_violated"
   ],
   "note": "violated for single dates: += and -= panic. When they panic is decided for all operands (C83_exact, C83_set_exact): exactly when both operands are single dates (for sets: an interval is one) whose sum is representable; otherwise += is + as soon as there is a representable sum."
  },
  {
   "property": "C84",
   "status": "partial",
   "theorems": [
    "Chrono.C84_iter_partial",
    "Chrono.C84_exhausted_violated",
    "Chrono.C84_from_partial",
    "Chrono.C84_from_exhausted_violated",
    "Chrono.C84_release",
    "Chrono.C84_release_exhausted"
   ],
   "note": "Proved while constraints are left; violated once exhausted (u32 overflow) for every graph of at least two instants. In a release build the upper bound is right at every point, even after the end (C84_release), where it is 2^32 + 1 - size (C84_release_exhausted)."
  },
  {
   "property": "C85",
   "status": "partial",
   "theorems": [
    "Chrono.C85_float",
    "Chrono.C85_translation_exact",
    "Chrono.C85_translation_partial",
    "Chrono.C85_scaling_partial",
    "Chrono.C85_violated"
   ],
   "note": "violated in case of overflow without debug assertions: the iteration stops at the first interval which overflows as a whole. What is yielded is decided for every translation in both builds (C85_translation_exact)."
  },
  {
   "property": "C86",
   "status": "partial",
   "theorems": [
    "Chrono.C86_increment_partial",
    "Chrono.C86_violated"
   ],
   "note": "violated for every forward sequence (increment() has the wrong sign); proved for backward ones"
  },
  {
   "property": "C87",
   "status": "partial",
   "theorems": [
    "Chrono.C87_reverse_forward_partial",
    "Chrono.C87_reverse_backward_partial",
    "Chrono.C87_exhausted_violated"
   ],
   "note": "Proved as long as the last call of next() has returned an element. Violated by every sequence whose end has been reached: once reversed it yields +oo (-oo) for ever (C87_exhausted_violated)."
  },
  {
   "property": "C88",
   "status": "partial",
   "theorems": [
    "Chrono.C88_last_partial",
    "Chrono.C88_violated",
    "Chrono.C88_backward_last_partial",
    "Chrono.C88_backward_violated"
   ],
   "note": "Violated in every state where len() is wrong; proved otherwise."
  },
  {
   "property": "C89",
   "status": "partial",
   "theorems": [
    "Chrono.C89_backward_periods_partial",
    "Chrono.C89_greatest_violated",
    "Chrono.C89_violated",
    "Chrono.C89_after_violated"
   ],
   "note": "Violated from every start: the greatest multiple which is not after the start is never yielded (the sequence starts two periods too early); soundness proved. The starts at or before the origin which are just after a multiple, where ceil is wrong, are decided as well (C89_after_violated)."
  },
  {
   "property": "C90",
   "status": "partial",
   "theorems": [
    "Chrono.C90_deadline_partial",
    "Chrono.C90_startline_partial",
    "Chrono.C90_violated"
   ],
   "note": "No assignment lost and the bound holds after Ok; errors and panics only when no assignment meets the date. Violated: after three accepted calls with sets set_deadline panics on an unwrap."
  },
  {
   "property": "C91",
   "status": "partial",
   "theorems": [
    "Chrono.C91_sets_partial",
    "Chrono.C91_interval",
    "Chrono.C91_timepoint_partial",
    "Chrono.C91_violated"
   ],
   "note": "All non-empty canonical sets of durations and all finite durations. Violated on the empty set ({{}} instead of {}) and on infinite durations (printed in years by format_timepoint)."
  },
  {
   "property": "C92",
   "status": "partial",
   "theorems": [
    "Chrono.C92_ticks",
    "Chrono.C92_units_partial",
    "Chrono.C92_subsec_partial",
    "Chrono.C92_violated"
   ],
   "note": "Every integer type; the counts below the smallest representable one are excluded. Violated there: no integer of any type gives -oo in seconds or larger units, (i128::MIN).secs() is 0."
  },
  {
   "property": "C93",
   "status": "partial",
   "theorems": [
    "Chrono.C93_structure",
    "Chrono.C93_is_all_partial",
    "Chrono.C93_is_all_violated"
   ],
   "note": "All proper windows; is_all on windows with a date. Violated: is_all is true of every empty range."
  },
  {
   "property": "C94",
   "status": "partial",
   "theorems": [
    "Chrono.C94_to_datetime",
    "Chrono.C94_calendar",
    "Chrono.C94_of_datetime_partial",
    "Chrono.C94_roundtrip",
    "Chrono.C94_roundtrip_date",
    "Chrono.C94_violated"
   ],
   "note": "Chrono's date arithmetic is specified, not modelled. All timestamps; dates whose nanoseconds since 1970 are within 2^33 s. Violated: all the dates from 1677 to 1697 become timestamps in the future (wrapping multiplication guarded on one side only), dates beyond the i64 nanoseconds panic."
  },
  {
   "property": "C95",
   "status": "partial",
   "theorems": [
    "Chrono.C95_now_partial",
    "Chrono.C95_elapsed_partial",
    "Chrono.C95_elapsed_any_partial",
    "Chrono.C95_violated"
   ],
   "note": "Clock readings from 1970 to 2038-01-19. Violated after: now() is +oo for every reading and now().elapsed() panics. elapsed() is decided on every timestamp (C95_elapsed_any_partial)."
  },
  {
   "property": "C96",
   "status": "proved",
   "theorems": [
    "Chrono.C96_display",
    "Chrono.C96_interval",
    "Chrono.C96_sets"
   ],
   "note": "All timestamps and non-empty canonical sets; chrono's text of a date is a parameter."
  },
  {
   "property": "C97",
   "status": "partial",
   "theorems": [
    "Chrono.C97_empty_exact",
    "Chrono.C97_sets_partial",
    "Chrono.C97_violated"
   ],
   "note": "All bounds and windows. Violated: the singletons of both infinities hold an empty interval: is_empty() is false although they have no date. Emptiness is decided for all legal bounds (C97_empty_exact)."
  },
  {
   "property": "C98",
   "status": "partial",
   "theorems": [
    "Chrono.C98_ieee",
    "Chrono.C98_exact",
    "Chrono.C98_error",
    "Chrono.C98_monotone",
    "Chrono.C98_monotone_factor",
    "Chrono.C98_div_error",
    "Chrono.C98_div_monotone",
    "Chrono.C98_infinite_partial",
    "Chrono.C98_violated",
    "Chrono.C98_odd_violated"
   ],
   "note": "Floats are modelled exactly (IEEE 754, round half to even). All durations and floats. Violated: every positive factor below 1 makes +oo finite, t * NaN is 0, no product beyond 2^53 ticks is an odd number of ticks, so t * 1.0 differs from t for every odd t there, 49 / 49.0 is 0."
  },
  {
   "property": "C99",
   "status": "partial",
   "theorems": [
    "Chrono.C99_interval",
    "Chrono.C99_interval_div",
    "Chrono.C99_interval_div_panic_partial",
    "Chrono.C99_sets_points",
    "Chrono.C99_sets_panic",
    "Chrono.C99_sets_canonical_partial",
    "Chrono.C99_violated",
    "Chrono.C99_nan_violated",
    "Chrono.C99_zero_violated"
   ],
   "note": "Points and panics: all intervals, sets and floats. Canonical form: *= with |f| < 1 and * with |f| > 1. Violated elsewhere: s * 0.5 leaves touching intervals (the test of * is the wrong way round) and so differs from s *= 0.5; *= 1.0 leaves overlapping intervals beyond 2^53 ticks. Every set of several intervals times NaN is not canonical; every interval around 0 divided by -0.0 panics."
  },
  {
   "property": "C100",
   "status": "proved",
   "theorems": [
    "Chrono.C100_debug",
    "Chrono.C100_debug_determines",
    "Chrono.C100_constraint",
    "Chrono.C100_constraint_determines"
   ],
   "note": "All graphs and all constraints."
  },
  {
   "property": "C101",
   "status": "proved",
   "theorems": [
    "Chrono.C101_display",
    "Chrono.C101_display_determines"
   ],
   "note": "All graphs with a solution whose finite bounds are at most INF-1 ticks."
  },
  {
   "property": "C102",
   "status": "partial",
   "theorems": [
    "Chrono.C102_debug",
    "Chrono.C102_debug_determines",
    "Chrono.C102_display",
    "Chrono.C102_format_partial",
    "Chrono.C102_violated",
    "Chrono.C102_reached_debug",
    "Chrono.C102_reached_determines",
    "Chrono.C102_reached_display",
    "Chrono.C102_reached_format_partial"
   ],
   "note": "All canonical schedulers with at least one instant. Violated by format_timeset: a scheduler without instant gives a sentence instead of the empty text, and an empty schedule is written {{}} instead of {}. The violation is general: every scheduler without instants, every instant with an empty slot. The reached_ theorems hold after any history of requests, whose schedules may show intervals without a date such as [10,9]."
  },
  {
   "property": "C103",
   "status": "partial",
   "theorems": [
    "Chrono.C103_extend",
    "Chrono.C103_collect_partial",
    "Chrono.C103_self_violated"
   ],
   "note": "Bounds at most W with 3\u00b7n\u00b7W < 2^63-1. Violated: collecting a single constraint from an instant to itself whose time span is not empty but does not hold 0 returns a graph."
  },
  {
   "property": "C104",
   "status": "partial",
   "theorems": [
    "Chrono.C104_step_by",
    "Chrono.C104_contract_partial",
    "Chrono.C104_dates_partial",
    "Chrono.C104_rewrite_partial",
    "Chrono.C104_touch_violated",
    "Chrono.C104_scaling_violated",
    "Chrono.C104_translate_span",
    "Chrono.C104_float_violated"
   ],
   "note": "Any depth; the intersections do not touch, translations and scalings do not overflow, factors are positive (dates: each union ends with its second operand, see C30). Violated: touching operands of an intersection (the double complement of an empty intersection has dates), every negative factor on every set with several intervals, floats."
  },
  {
   "property": "C105",
   "status": "partial",
   "theorems": [
    "Chrono.C105_inter_comm",
    "Chrono.C105_inter_assoc",
    "Chrono.C105_inter_units",
    "Chrono.C105_excluded_middle",
    "Chrono.C105_contradiction_violated",
    "Chrono.C105_union_units",
    "Chrono.C105_union_comm_partial",
    "Chrono.C105_union_comm_violated",
    "Chrono.C105_union_assoc_partial",
    "Chrono.C105_absorb_union_partial",
    "Chrono.C105_de_morgan_union_partial",
    "Chrono.C105_de_morgan_inter_partial",
    "Chrono.C105_distrib_partial",
    "Chrono.C105_absorb",
    "Chrono.C105_union_comm_exact",
    "Chrono.C105_absorb_union_exact",
    "Chrono.C105_de_morgan_union_exact",
    "Chrono.C105_de_morgan_inter_exact"
   ],
   "note": "Proved outright: the laws of & alone, the units of |, the excluded middle, (a & b) | a == a. Decided exactly: a | b == b | a iff neither order loses a date (C30), a & (a | b) == a iff the union loses none, and De Morgan's laws hold iff the union loses no date and the sets do not touch (C33). Partial: associativity of | and distributivity, when the unions lose no date and the sets do not touch. Violated: a & !a is never empty (unless a is empty or has every date); a | b and b | a differ as soon as a has an interval, other than its last, beyond b."
  },
  {
   "property": "C106",
   "status": "partial",
   "theorems": [
    "Chrono.C106_same",
    "Chrono.C106_small_partial",
    "Chrono.C106_limit_violated"
   ],
   "note": "Up to 65535 instants, and whenever the debug build answers. Violated from 65536 on: enlarging a graph writes out of its memory (certain when n^2 mod 2^32 <= 4294901760, in particular for 65536 and 65537), or the bound between instants 256 and 0 is overwritten by the one of instant 65536."
  },
  {
   "property": "C107",
   "status": "partial",
   "theorems": [
    "Chrono.C107_same",
    "Chrono.C107_floor_violated",
    "Chrono.C107_ceil_violated",
    "Chrono.C107_floor_partial",
    "Chrono.C107_ceil_partial"
   ],
   "note": "Whenever the debug build answers (for floor: the multiple is representable). Violated for every date and period such that the multiple is not an i64: floor answers a date after the argument, ceil a date before. ceil is decided as well when the right multiple is representable (C107_ceil_partial)."
  },
  {
   "property": "C108",
   "status": "partial",
   "theorems": [
    "Chrono.C108_shrink_to_partial",
    "Chrono.C108_shrink_to_violated"
   ],
   "note": "For n <= 65535. Violated: for every n >= 65536 a debug build panics on the overflow of n*n."
  },
  {
   "property": "C109",
   "status": "partial",
   "theorems": [
    "Chrono.C109_add_span",
    "Chrono.C109_sub_span",
    "Chrono.C109_translate",
    "Chrono.C109_assign_violated",
    "Chrono.C109_round_trip_violated"
   ],
   "note": "All operands for + and -. Violated: += and -= give the one-point intervals +oo and -oo (the latter is not reported as empty); when one end only overflows the bound is lost, (i + d) - d is unbounded."
  },
  {
   "property": "C110",
   "status": "partial",
   "theorems": [
    "Chrono.C110_translate_partial",
    "Chrono.C110_translate_others",
    "Chrono.C110_iter_partial",
    "Chrono.C110_iter_violated",
    "Chrono.C110_empty_violated",
    "Chrono.C110_add_span",
    "Chrono.C110_sub_span",
    "Chrono.C110_add_spans_violated"
   ],
   "note": "s + span and s - span: all operands. s + d: the dates are right, the form is canonical iff no interval overflows as a whole. s - d, spans + t, spans - t and t - spans are s + d of another set or duration, panics included. The iterator: towards the future, and towards the past when the first interval keeps some date. Violated: an overflowing interval is kept as an empty one by s + d and s + spans; a set without dates is not reported as empty; towards the past the iterator stops at the first overflow and loses all the other intervals."
  },
  {
   "property": "C111",
   "status": "proved",
   "theorems": [
    "Chrono.C111_predicates",
    "Chrono.C111_sum",
    "Chrono.C111_difference",
    "Chrono.C111_product"
   ],
   "note": "All legal operands; products by the integer types of at most 64 bits."
  },
  {
   "property": "C112",
   "status": "partial",
   "theorems": [
    "Chrono.C112_equivalence",
    "Chrono.C112_hash",
    "Chrono.C112_hash_points",
    "Chrono.C112_order_partial",
    "Chrono.C112_order_violated"
   ],
   "note": "Equality and hashes: full. Order: full for non-empty values; an empty value is both < and > every bounded value, and == , < and > itself (C112_order_violated decides all the cases)."
  },
  {
   "property": "C113",
   "status": "partial",
   "theorems": [
    "Chrono.C113_round_trip_partial",
    "Chrono.C113_injective",
    "Chrono.C113_unchecked_violated",
    "Chrono.C113_reversed_violated",
    "Chrono.C113_fields",
    "Chrono.C113_interval_exact",
    "Chrono.C113_set_exact"
   ],
   "note": "Everything the crate writes reads back. What is read is decided exactly: which documents are accepted and as what (C113_interval_exact, C113_set_exact). Reading checks nothing: any pair of i64 is accepted as an interval, any list of them as a set (C113_unchecked_violated). The model stops at serde's data model; formats such as JSON are not modelled."
  },
  {
   "property": "C114",
   "status": "proved",
   "theorems": [
    "Chrono.C114_solutions",
    "Chrono.C114_next"
   ],
   "note": "All bounds. Constraints between an instant and itself are excluded (C62_self_violated), as is resize to a smaller size (C74) and size hints 0 and 1 (C64); shrink_to_fit while a solution exists."
  },
  {
   "property": "C115",
   "status": "proved",
   "theorems": [
    "Chrono.C115_solutions",
    "Chrono.C115_next",
    "Chrono.C115_end_to_end"
   ],
   "note": "All bounds. Excluded: set_deadline(-oo) and set_startline(+oo) (C79_violated). C115_end_to_end composes it with C114."
  },
  {
   "property": "C116",
   "status": "partial",
   "theorems": [
    "Chrono.C116_skip_partial",
    "Chrono.C116_skip_violated",
    "Chrono.C116_step_by_violated",
    "Chrono.C116_step_by_one_violated",
    "Chrono.C116_backward_skip_partial",
    "Chrono.C116_backward_skip_violated",
    "Chrono.C116_backward_step_by_violated",
    "Chrono.C116_backward_step_by_one_violated"
   ],
   "note": "violated: nth(n) skips n - 1 elements (nth(0) repeats the date already given), so skip(n) skips n - 1 elements and step_by(k) advances by k - 1 periods, step_by(1) standing still; proved in general, with what they yield instead. Proved: skip(0), and skip beyond the end"
  },
  {
   "property": "C117",
   "status": "proved",
   "theorems": [
    "Chrono.C117_lazy",
    "Chrono.C117_panic",
    "Chrono.C117_terminates",
    "Chrono.C117_take",
    "Chrono.C117_translation",
    "Chrono.C117_used"
   ],
   "note": "All pipelines and states; predicates of filter, skip_while and take_while are functions without state."
  },
  {
   "property": "C118",
   "status": "partial",
   "theorems": [
    "Chrono.C118_operation",
    "Chrono.C118_history",
    "Chrono.C118_queries",
    "Chrono.C118_collect",
    "Chrono.C118_last_instant_violated"
   ],
   "note": "All graphs and histories. Violated beyond 65535 instants: a constraint on the instant 2^32 - 1 panics in a debug build and writes out of memory in a release build, on every graph (last_instant); see also C106."
  },
  {
   "property": "C119",
   "status": "proved",
   "theorems": [
    "Chrono.C119_intervals",
    "Chrono.C119_sets",
    "Chrono.C119_interval_stops",
    "Chrono.C119_set_stops",
    "Chrono.C119_chains",
    "Chrono.C119_next",
    "Chrono.C119_pipes",
    "Chrono.C119_request",
    "Chrono.C119_requests",
    "Chrono.C119_program"
   ],
   "note": "All translations, chains, pipelines in any state, schedules over allocated graphs, and programs of graph operations followed by requests."
  },
  {
   "property": "C120",
   "status": "proved",
   "theorems": [
    "Chrono.C120_moved",
    "Chrono.C120_operations",
    "Chrono.C120_laws",
    "Chrono.C120_relations",
    "Chrono.C120_request",
    "Chrono.C120_requests",
    "Chrono.C120_built"
   ],
   "note": "All sets, canonical or not, all windows and requests within the bounds given; (a & b) + d is decided exactly."
  },
  {
   "property": "C121",
   "status": "proved",
   "theorems": [
    "Chrono.C121_rename",
    "Chrono.C121_mirror",
    "Chrono.C121_direction",
    "Chrono.C121_batch"
   ],
   "note": "All permutations, histories with refused constraints, and batches, within the bounds which rule out saturation."
  },
  {
   "property": "C122",
   "status": "partial",
   "theorems": [
    "Chrono.C122_operations",
    "Chrono.C122_relations",
    "Chrono.C122_union_partial",
    "Chrono.C122_union_violated",
    "Chrono.C122_intervals",
    "Chrono.C122_translations",
    "Chrono.C122_set_translations"
   ],
   "note": "Proved outright for everything but the union of sets. For the union the law is decided exactly (it holds iff neither union loses a date, C30) and is violated as soon as a has an interval, other than its last, beyond the end of b."
  },
  {
   "property": "C123",
   "status": "partial",
   "theorems": [
    "Chrono.C123_request",
    "Chrono.C123_requests_partial",
    "Chrono.C123_convex",
    "Chrono.C123_queries",
    "Chrono.C123_program",
    "Chrono.C123_sets_violated"
   ],
   "note": "Proved for all requests on canonical slots, and for all sequences of requests without sets; with sets, for all sequences in which each request about a set finds canonical slots. Violated otherwise: on slots left by touching intervals (C33) the same request is accepted in one direction of time and refused in the other."
  },
  {
   "property": "C124",
   "status": "proved",
   "theorems": [
    "Chrono.C124_history",
    "Chrono.C124_batch"
   ],
   "note": "Histories with refused constraints, and batches; factors and origins at once, within the bounds which rule out saturation in both units."
  },
  {
   "property": "C125",
   "status": "partial",
   "theorems": [
    "Chrono.C125_meaning_partial",
    "Chrono.C125_order_partial",
    "Chrono.C125_repeat_partial",
    "Chrono.C125_set_violated",
    "Chrono.C125_order_violated"
   ],
   "note": "Proved for dates, intervals and ranges which are not empty (those violate C78), deadlines and startlines. Violated by sets: making the same request again is decided exactly (it is answered Propagated again iff a former interval of the instant begins just after the end of an interval of the set, except for instant 0), and there are three requests, all accepted, whose order changes the dates left for another instant."
  },
  {
   "property": "C126",
   "status": "partial",
   "theorems": [
    "Chrono.C126_greedy_partial",
    "Chrono.C126_set_violated"
   ],
   "note": "Proved for histories of dates, intervals and ranges which are not empty, deadlines and startlines. Violated after requests with sets: a date left for an instant may belong to no solution, and choosing it is accepted but leaves another instant without a date."
  },
  {
   "property": "C127",
   "status": "partial",
   "theorems": [
    "Chrono.C127_refused",
    "Chrono.C127_kept_partial",
    "Chrono.C127_set_violated",
    "Chrono.C127_graph"
   ],
   "note": "Refusals: proved for all requests, as are both claims for graphs. Acceptance: proved for dates, intervals, ranges, deadlines and startlines, and for sets when the intervals left for the instant are canonical. Violated for sets otherwise: an accepted set is answered Propagated after a request which touches the slots (C33)."
  },
  {
   "property": "C128",
   "status": "partial",
   "theorems": [
    "Chrono.C128_graph",
    "Chrono.C128_sched_partial",
    "Chrono.C128_empty_violated",
    "Chrono.C128_reached_violated"
   ],
   "note": "Proved for graphs; for schedulers and all requests but empty intervals and ranges (accepted by mistake, C75). Violated by those: since constraints_from starts with instant 0 even if nothing is known about it (C72), an empty window requested for any instant erases the dates of instant 0. C128_reached_violated is the same after any history of requests."
  },
  {
   "property": "C129",
   "status": "partial",
   "theorems": [
    "Chrono.C129_graph_partial",
    "Chrono.C129_next_partial",
    "Chrono.C129_sched",
    "Chrono.C129_requests_partial",
    "Chrono.C129_growth_violated"
   ],
   "note": "Proved for histories whose single constraints are between two instants of the graph or between two new ones. Violated when a single constraint links an old instant to a new one (C64): making room for the new instant first gives the same solutions and other time spans. Merges: the same rejections; whether an accepted merge answers unchanged or propagated is not compared."
  },
  {
   "property": "C130",
   "status": "partial",
   "theorems": [
    "Chrono.C130_bounds",
    "Chrono.C130_ending_partial",
    "Chrono.C130_beginning_partial",
    "Chrono.C130_extremes_partial",
    "Chrono.C130_graph",
    "Chrono.C130_set_violated"
   ],
   "note": "For windows of all types no plan is better than earliest_ending and latest_beginning (C130_bounds). That they are attained is proved for dates, intervals and ranges which are not empty, deadlines and startlines, and violated by sets: there are three requests, all accepted, after which earliest_ending is 10 and all the plans end at 14 or after."
  },
  {
   "property": "C131",
   "status": "partial",
   "theorems": [
    "Chrono.C131_origin_partial",
    "Chrono.C131_empty_violated"
   ],
   "note": "Proved for windows which are not empty. Violated by every empty interval or range on an instant without request: the graph refuses it, the scheduler accepts it (C75)."
  },
  {
   "property": "C132",
   "status": "partial",
   "theorems": [
    "Chrono.C132_graph_partial",
    "Chrono.C132_answers_partial",
    "Chrono.C132_sched_partial",
    "Chrono.C132_set_violated"
   ],
   "note": "Graphs: histories whose single constraints are between two instants of the graph or between two new ones (C64 otherwise). Schedulers: dates, intervals and ranges which are not empty, deadlines and startlines. Violated by sets: the same requests, all accepted, in another order leave another date."
  },
  {
   "property": "C133",
   "status": "partial",
   "theorems": [
    "Chrono.C133_span_partial",
    "Chrono.C133_choose_partial",
    "Chrono.C133_deduction_violated",
    "Chrono.C133_growth_violated"
   ],
   "note": "Histories whose single constraints are between two instants of the graph or between two new ones. Violated after a single constraint from an old instant to a new one, in general (C133_deduction_violated): delays which are announced are refused, or accepted with no solution left, as in C133_growth_violated."
  },
  {
   "property": "C134",
   "status": "partial",
   "theorems": [
    "Chrono.C134_solutions",
    "Chrono.C134_converge_partial",
    "Chrono.C134_exchange_partial",
    "Chrono.C134_growth_violated"
   ],
   "note": "The solutions, with any bounds and histories (C134_solutions). The announced delays: histories whose single constraints are between two instants of the graph or between two new ones, with bounds which rule out saturation. Violated otherwise: a graph which was given a constraint from an old instant to a new one is completed by an exchange with a graph which knows nothing in one direction, and not in the other."
  },
  {
   "property": "C135",
   "status": "partial",
   "theorems": [
    "Chrono.C135_route_partial",
    "Chrono.C135_rest_partial",
    "Chrono.C135_sched_partial",
    "Chrono.C135_date_partial",
    "Chrono.C135_growth_violated",
    "Chrono.C135_set_violated"
   ],
   "note": "Graphs: all minimal graphs with any bounds (C135_route_partial, C135_rest_partial). Schedulers: requests without sets (C135_sched_partial, C135_date_partial). Violated after a constraint from an old instant to a new one (C135_growth_violated, general) and after sets (C135_set_violated)."
  },
  {
   "property": "C136",
   "status": "partial",
   "theorems": [
    "Chrono.C136_writes",
    "Chrono.C136_propagate",
    "Chrono.C136_extend",
    "Chrono.C136_merge",
    "Chrono.C136_iterator",
    "Chrono.C136_resume",
    "Chrono.C136_history",
    "Chrono.C136_next",
    "Chrono.C136_deduce_violated",
    "Chrono.C136_contradiction_violated"
   ],
   "note": "All but the last sentence, with any bounds and histories (C136_propagate, C136_extend, C136_merge, C136_iterator, C136_resume, C136_history, C136_next). The last sentence is violated, in general, when the iterator of extend panics: nothing has been propagated (C136_deduce_violated), and a constraint which contradicts those left may then be accepted (C136_contradiction_violated). crash_results, crash_writes, crash_writes_merge: the step by step model computes what the model of the operations computes, and leaves no write out. C136_writes states it for every operation: same answer, one write at a time, ending with the content returned."
  },
  {
   "property": "C137",
   "status": "partial",
   "theorems": [
    "Chrono.C137_writes",
    "Chrono.C137_request",
    "Chrono.C137_history",
    "Chrono.C137_next",
    "Chrono.C137_undone_violated"
   ],
   "note": "All but the last sentence (C137_request, C137_history, C137_next). The last sentence is violated: set_deadline may panic after it has removed solutions (C137_undone_violated). crash_results and crash_writes as for C136. C137_writes: the step by step version gives the same answer, one write at a time, ending with the schedule returned."
  },
  {
   "property": "C138",
   "status": "partial",
   "theorems": [
    "Chrono.C138_results",
    "Chrono.C138_replace",
    "Chrono.C138_divide",
    "Chrono.C138_interval",
    "Chrono.C138_interval_others",
    "Chrono.C138_translate",
    "Chrono.C138_translate_violated",
    "Chrono.C138_canonical_exact",
    "Chrono.C138_canonical_violated",
    "Chrono.C138_lookup_violated",
    "Chrono.C138_infinite_violated",
    "Chrono.C138_scale",
    "Chrono.C138_scale_float",
    "Chrono.C138_scale_violated"
   ],
   "note": "The second sentence holds (C138_replace, C138_divide). What the others leave is decided: C138_interval, C138_translate, C138_scale, C138_scale_float, and C138_canonical_exact for the order. The first sentence is violated whenever += of a duration other than 0 panics (C138_translate_violated; it panics after the write) and by infinite durations (C138_infinite_violated); the set left may be out of order (C138_canonical_violated, C138_scale_violated, in general), and then answers contains wrongly (C138_lookup_violated). crash_set_results: the step by step model computes what the model of the operations computes. C138_results: the step by step version gives the same answer."
  },
  {
   "property": "C139",
   "status": "proved",
   "theorems": [
    "Chrono.C139_sets",
    "Chrono.C139_arith",
    "Chrono.C139_others",
    "Chrono.C139_calculation",
    "Chrono.C139_turns",
    "Chrono.C139_shortest"
   ],
   "note": "all sentences proved; the bounds hold for any lists, in order or not; the lower bound is proved for canonical sets"
  },
  {
   "property": "C140",
   "status": "proved",
   "theorems": [
    "Chrono.C140_propagate",
    "Chrono.C140_quiet",
    "Chrono.C140_extend",
    "Chrono.C140_merge",
    "Chrono.C140_quiet_requests",
    "Chrono.C140_requests"
   ],
   "note": "all sentences proved; the writes are those of the stepwise model, shown complete by crash_writes; a change of the size of a graph, and the comparison loop of merge, count for one write"
  },
  {
   "property": "C141",
   "status": "proved",
   "theorems": [
    "Chrono.C141_durations",
    "Chrono.C141_spans",
    "Chrono.C141_undo",
    "Chrono.C141_monotone",
    "Chrono.C141_scale",
    "Chrono.C141_divide",
    "Chrono.C141_back",
    "Chrono.C141_distribute"
   ],
   "note": "Full, within range; beyond it C01, C109 and C110 tell what happens. (s + A) * n == s * n + A * n is not claimed for sets: it is false when two intervals touch after the translation."
  },
  {
   "property": "C142",
   "status": "partial",
   "theorems": [
    "Chrono.C142_floor_exact",
    "Chrono.C142_ceil_exact",
    "Chrono.C142_monotone",
    "Chrono.C142_floor_shift",
    "Chrono.C142_ceil_shift_partial",
    "Chrono.C142_floor_nested",
    "Chrono.C142_ceil_nested",
    "Chrono.C142_unit_violated",
    "Chrono.C142_units_nested",
    "Chrono.C142_mirror_exact",
    "Chrono.C142_mirror_violated",
    "Chrono.C142_infinite_violated",
    "Chrono.C142_legal_violated"
   ],
   "note": "What floor and ceil answer is decided for every value (C142_floor_exact, C142_ceil_exact). Order: all values. Shifts and nested roundings: floor and units outright, ceil for positive values or periods of two ticks at least (shifts: positive values). Violated: ceil to one tick goes down for ever from any non-positive value; the mirror law is decided exactly (C142_mirror_exact) and fails for every period; floor makes +oo finite and ceil makes -oo finite for almost every period; floor to a power of two (a second, say) of the first dates is i64::MIN, which is not a valid value."
  },
  {
   "property": "C143",
   "status": "proved",
   "theorems": [
    "Chrono.C143_longest",
    "Chrono.C143_inside",
    "Chrono.C143_translate",
    "Chrono.C143_span",
    "Chrono.C143_cut",
    "Chrono.C143_enlarge",
    "Chrono.C143_end"
   ],
   "note": ""
  },
  {
   "property": "C144",
   "status": "proved",
   "theorems": [
    "Chrono.C144_merge_is_extend",
    "Chrono.C144_one_by_one"
   ],
   "note": ""
  },
  {
   "property": "C145",
   "status": "partial",
   "theorems": [
    "Chrono.C145_forward",
    "Chrono.C145_backward_violated",
    "Chrono.C145_backward_partial"
   ],
   "note": "Proved for forward sequences (C145_forward), and for backward ones when the slots leave no gap (C145_backward_partial). Violated by every backward sequence whose period leaves a gap: only the slots of the last two dates are collected (C145_backward_violated), whatever their number."
  },
  {
   "property": "C146",
   "status": "partial",
   "theorems": [
    "Chrono.C146_over_partial",
    "Chrono.C146_translation_violated",
    "Chrono.C146_sequences",
    "Chrono.C146_constraints"
   ],
   "note": "violated by a translation in a release build: an interval which overflows as a whole makes next() return None, and the next call goes on with the following interval (C146_translation_violated, for all such intervals). Proved for every pipeline of a debug build, and in a release build for those whose translations are inside a union, an intersection, an exclusion or a complement, which stop at the first None; for all sequences and all iterators of graphs."
  },
  {
   "property": "C147",
   "status": "proved",
   "theorems": [
    "Chrono.C147_turns",
    "Chrono.C147_once",
    "Chrono.C147_items"
   ],
   "note": ""
  },
  {
   "property": "C148",
   "status": "proved",
   "theorems": [
    "Chrono.C148_delay",
    "Chrono.C148_history",
    "Chrono.C148_collect",
    "Chrono.C148_earliest",
    "Chrono.C148_latest",
    "Chrono.C148_refused"
   ],
   "note": ""
  },
  {
   "property": "C149",
   "status": "proved",
   "theorems": [
    "Chrono.C149_delay",
    "Chrono.C149_history",
    "Chrono.C149_collect",
    "Chrono.C149_margin",
    "Chrono.C149_earliest",
    "Chrono.C149_latest"
   ],
   "note": ""
  },
  {
   "property": "C150",
   "status": "proved",
   "theorems": [
    "Chrono.C150_parts"
   ],
   "note": ""
  },
  {
   "property": "C151",
   "status": "partial",
   "theorems": [
    "Chrono.C151_dates",
    "Chrono.C151_contains",
    "Chrono.C151_regroup",
    "Chrono.C151_translate_violated"
   ],
   "note": "The dates, the containment queries and the order of intersections are proved for every expression. The sentence on translations is violated: the intersection of any two intervals which touch has no date, yet translated by a time span of more than one duration it has some, and translated by one duration it panics in a debug build (C151_translate_violated)."
  },
  {
   "property": "C152",
   "status": "partial",
   "theorems": [
    "Chrono.C152_one_partial",
    "Chrono.C152_one_answer_partial",
    "Chrono.C152_two_partial",
    "Chrono.C152_two_answer_partial",
    "Chrono.C152_violated"
   ],
   "note": "Proved in both builds, when the slots of the instant show no interval without a date: for requests about one instant at the end of the history only (C152_one_partial, C152_one_answer_partial), for two instants after each accepted request (C152_two_partial, C152_two_answer_partial). Violated otherwise, for every delay which is not fixed and every removal which ends where the slots end (C152_violated)."
  },
  {
   "property": "C153",
   "status": "proved",
   "theorems": [
    "Chrono.C153_dates",
    "Chrono.C153_through",
    "Chrono.C153_built"
   ],
   "note": "Proved in both builds for histories of retain with non-empty convex windows, set_deadline and set_startline (a deadline or a startline is about both parts); C153_built shows that graphs built by constraints inside the parts meet the hypothesis."
  },
  {
   "property": "C154",
   "status": "proved",
   "theorems": [
    "Chrono.C154_sets",
    "Chrono.C154_exact",
    "Chrono.C154_plan"
   ],
   "note": "Proved in both builds. When an instant has lost all its intervals, instant 0 may lose its dates without being constrained with it (the first constraint enumerated, C72_first_violated), so the statement asks for a date left for each instant."
  },
  {
   "property": "C155",
   "status": "proved",
   "theorems": [
    "Chrono.C155_steps",
    "Chrono.C155_chain"
   ],
   "note": "Any number of steps from with_size(n), bounds at most W with 3\u00b7n\u00b7W < 2^63-1; sides of a step without a bound are allowed in C155_steps, C155_chain is about bounded steps."
  },
  {
   "property": "C156",
   "status": "proved",
   "theorems": [
    "Chrono.C156_window",
    "Chrono.C156_ends",
    "Chrono.C156_built",
    "Chrono.C156_precedences"
   ],
   "note": "C156_built and C156_precedences show that the hypotheses of C156_window are met by graphs built from constraints (Within (n\u00b7W)); both builds."
  },
  {
   "property": "C157",
   "status": "partial",
   "theorems": [
    "Chrono.C157_sets",
    "Chrono.C157_sets_violated",
    "Chrono.C157_dates",
    "Chrono.C157_contains",
    "Chrono.C157_relations_violated",
    "Chrono.C157_canonical_violated",
    "Chrono.C157_translate_violated"
   ],
   "note": "Proved for every pair: the dates after &, |, !, truncations and negation, the zero duration and what it contains. Violated for every pair of intervals, one before the other: a & b is said to overlap every window which has dates of both, is said not to be contained in windows which end earlier, ! and | give sets which are not canonical, adding a long enough span makes dates appear, and adding a duration panics in a debug build. For sets: s &= a & b leaves the empty set and s & (a & b) a set without dates, for every canonical set; but the latter is not said to be empty as soon as an interval of s has dates of both (C157_sets_violated)."
  },
  {
   "property": "C158",
   "status": "partial",
   "theorems": [
    "Chrono.C158_refused_partial",
    "Chrono.C158_violated",
    "Chrono.C158_reached_partial",
    "Chrono.C158_reached_violated"
   ],
   "note": "Refused, with the schedule untouched, exactly when no slot of the instant has dates of both intervals. Violated for every other schedule (every new scheduler among them): the answer is Ok(Propagated), the instant and all those at a bounded delay have no date left, and every later request on them is answered Ok(Unchanged). The reached_ theorems say the same after any history of requests, whose schedules may show intervals without a date, for an instant which still has a date."
  },
  {
   "property": "C159",
   "status": "partial",
   "theorems": [
    "Chrono.C159_refused_partial",
    "Chrono.C159_any_bounds_violated",
    "Chrono.C159_violated",
    "Chrono.C159_growth_violated"
   ],
   "note": "Refused, with the graph untouched, exactly when the graph does not allow both delays less than the second interval and others. Violated for every other graph: without overflow the request is accepted, Ok(Propagated), and the graph has no solution left (C159_violated); with any bounds it is never refused, and the same holds once it is answered (C159_any_bounds_violated). Violated for every new instant too."
  },
  {
   "property": "C160",
   "status": "partial",
   "theorems": [
    "Chrono.C160_reached_partial",
    "Chrono.C160_reached_violated",
    "Chrono.C160_unchanged_partial",
    "Chrono.C160_violated"
   ],
   "note": "Never refused, and answered Ok(Unchanged) with the schedule untouched exactly when no slot of the instant goes on across the beginning of b (C160_unchanged_partial). Violated for all other slots: no date of the instant is removed and no assignment is lost, but the answer is Ok(Propagated) and the propagation is done again (C160_violated). C160_reached_partial and C160_reached_violated say the same of the schedules after any history of requests, which may show intervals without a date."
  }
 ]
}