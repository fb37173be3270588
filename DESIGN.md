# Formal model of XopheD/chronologic — design

Layout of `lean/Verif`: `Model/` transcribes the Rust code; `Spec/` is the small vocabulary in which the properties are
stated; `Lemmas/` are proofs about the model; `Props/` holds one theorem or more per property (`Cnn_…`), each followed by
an `example` in which a concrete case meets the hypotheses. `seeded/LOG.jsonl` records the wrong programs tried against
the theorems.

## Trusted base

* Lean 4.33.0's kernel, and the axioms `propext`, `Classical.choice`, `Quot.sound` only: the last section lists which of
  them each theorem uses. No axiom of our own, no `sorry`, no `native_decide`, no `bv_decide`. No Mathlib module is needed.
* That the definitions under `Model/` transcribe the Rust source. Each one cites file and lines, and says what it
  simplifies. Nothing is extracted automatically: /repo was read as text.
  `Check/RepoTests.lean` evaluates the unit tests of /repo on the model, in the kernel: they all pass.
* That the vocabulary under `Spec/` says what the English property says.
* Rust and its standard library: two's complement `i64`, `saturating_*`, `checked_*`, `<<`, `/` and `%` towards zero, `as`
  casts (saturating from floats), `Iterator` and `Vec` methods, derived `Ord`/`PartialEq`. `f32` and `f64` arithmetic is IEEE 754 with
  rounding to nearest, ties to even.
* The `chrono` crate: a date is specified by its seconds and nanoseconds since 1970; `from_timestamp`, `timestamp`,
  `timestamp_subsec_nanos`, `timestamp_nanos_opt` have their documented behaviour; the text of a date is a parameter.

## Representation choices

| Rust | model |
|---|---|
| `TimeValue(i64)`, `Timestamp(TimeValue)` | `Int` ticks. `INF = i64::MAX`; `-INF` is −∞. `i64::MIN` is not a legal value (see C05). |
| generic `T: TimePoint` | the two instances have the same ticks and operations, so one `Int` model serves both; where they differ (`Debug`, `Display`, `ceil`) there are two definitions |
| panics, `assert!`, `unwrap`, checked arithmetic, `get_unchecked` | `Except Panic α`; an unchecked access out of range (undefined behaviour in Rust) is `Panic.outOfBounds`, so `= .ok _` also proves memory safety |
| `debug_assert!` | a Boolean `dbg` parameter on the functions with one which can fire; C109 and C110 decide what both builds do when a translation overflows |
| i64/u32 `+ - *` | debug-build semantics (overflow is `Panic.overflow`); `saturating_*` saturate, `<<` wraps. `Model/Release.lean` has the release-build versions of the graph storage, of rounding and of the sub-second constructors, `Model/ReleaseGraph.lean` those of all the operations of a graph, where they wrap, `Model/ReleaseSched.lean` those of the scheduler |
| `&mut self` | returns the new value; `Model/Crash.lean` also lists the contents of `*self` after each write, which a caught panic may leave (C136, C137) |
| `TimeInterval<T>` | `Iv {lower upper : Int}` |
| `TimeSet<T>(Vec<TimeInterval>)` | `List Iv` |
| `TW: TimeConvex` | inductive `Convex`: interval, point, the Rust ranges |
| `TW: TimeWindow` iterated | the list of the intervals it yields |
| `IterUnion`, `IterIntersection`, `IterComplementary` | state machines with the same states, one `step` per turn of the loop, `next` iterates `step`; the inputs are the lists of items they still hold |
| a pipeline of iterators | `Chain`, evaluated completely (`Chain.items`); and `Pipe`, its state between two turns of the loops of `next`, where an inner iterator is advanced only when it is asked. C117 relates the two |
| sequences | their fields; `next`, `nth`, `len`, `rev` as functions on them |
| `TimeGraph {size, data}` | same, `data : List Int`, same index formulas with the u32 overflow checks |
| `TimeScheduler` | graph and list of sets |
| `for` loops | `List.foldlM` over ranges |
| `f32`, `f64` | sign, integer significand and exponent, infinities and NaN; products and conversions are exact then rounded |
| `Formatter` output | `String`; the flags of the formatter are not modelled |

## What is modelled, file by file

| file | modelled | not modelled |
|---|---|---|
| `wins/timevalue.rs` | constructors, accessors, arithmetic, rounding, unit truncation, std/chrono durations, `Hash`, serde (derived code) | formats such as JSON |
| `wins/timestamp.rs` | constructors, arithmetic, `floor`/`ceil`, chrono dates, `now`, `elapsed` | the clock itself (a parameter) |
| `wins/convert.rs` | all the integer conversions | |
| `wins/timeinterval.rs`, `wins/mod.rs`, `ops/range.rs` | all the constructors, predicates and iterations of intervals, points and ranges | |
| `wins/timeset.rs` | constructors, predicates, collecting, bounds, `Hash`, serde (derived code) | capacity |
| `wins/format.rs` | `Debug` and `Display` of durations, timestamps, intervals, sets; `format_timeset`, `format_timepoint` | flags of the formatter |
| `ops/*.rs` | union, intersection, complement, translation, scaling by integers and floats, and the assigning versions | |
| `relns/*.rs` | containment, overlap, ordering | |
| `iter/*.rs` | union, intersection, complement, exclusion, translation, scaling iterators, their hints, chains of them with the standard adaptors | the commented-out part of `iter/transl.rs` |
| `seq/*.rs` | forward and backward sequences and periods, and the standard adaptors `skip` and `step_by` over them | |
| `graph/storage.rs` | cells, `resize`, `reset`, `shrink_to_fit`, `shrink_to`, reads and writes; the same in release builds | capacity |
| `graph/propagation.rs` | everything | text of the error |
| `graph/constraints.rs`, `graph/mod.rs` | constraints, views, comparison of instants, iterators and hints, texts | commented-out code |
| `graph/scheduler.rs` | everything, texts included | |
| `lib.rs` | re-exports only | |

Instants are `u32` in Rust. Up to 65535 of them the numbering of the cells does not overflow (C58, C59). Beyond, debug builds
panic and release builds wrap and access memory out of range: the model is the debug build, C59 proves the limit sharp, and C106,
C118 and C119 are about release builds.

## Specification vocabulary (`Verif/Spec`)

* `Date t`: `t` is finite. `InIv t i`: `i.lower ≤ t ≤ i.upper`; `InSet t s`: in one of the intervals; `InExt`: infinite bounds are
  ignored; `InConvex`, `InWindow`: the usual meaning of the Rust ranges.
* `WF`: `-INF ≤ lower ≤ upper ≤ INF`, `lower < INF`, `-INF < upper`. `Canon s`: all intervals well formed, in order, and
  separated by at least one missing tick.
* graph: an assignment `τ : Nat → Int` of dates on the unbounded time line. `Sat τ g`: each delay is in the announced
  `timespan`. `Holds τ k`: the delay is between the bounds of the constraint. `Minimal g`: every announced delay is the
  one of some solution. `Representable n τ`: the delays are finite time values. All are stated with what the user reads.
* histories (`Built`, `Planned`): the states reachable by calls of the API, each with the meaning of its history as a predicate on
  assignments.
* scheduler: histories of calls, and assignments which satisfy the graph and the windows of the accepted calls.
* sequences, formats, floats: the list of expected elements, the value denoted by a text, the real value of a float as an
  integer significand and an exponent.

## When the code violates the property

The property stays in `properties.jsonl` as a user would state it. We prove (a) its negation, on a concrete witness or in
general (`…_violated`), and (b) the strongest true variant found (`…_partial`), whose comment says what is missing. The
manifest then says `partial`. In C07 and C37 the `_violated` theorem is about inputs outside the quantifier of the property, so they
are `proved`. There is no property which cannot be expressed in the model, and none is partial for want of a proof.


## Plan and status per property

For each property: what is modelled (the anchors give the Rust symbols), how it is proved, the theorems, and what is
missing or violated. The full statements are in `properties.jsonl`.

**C01 — Duration addition is exact, saturating, and absorbs infinities** (proved; `Props/Duration.lean`).
Modelled: src/wins/timevalue.rs: impl Add for TimeValue; src/wins/timevalue.rs: TimeValue::from_ticks.
Method: case analysis on finite/infinite operands, then linear arithmetic on the saturating sum.
Theorems: `C01_add_table`.

**C02 — Duration addition is commutative, monotone and has 0 as unit; a sum over a list equals the exact sum when no prefix overflows** (proved; `Props/Duration.lean`).
Modelled: src/wins/timevalue.rs: impl Add for TimeValue; src/wins/timevalue.rs: impl Sum for TimeValue.
Method: commutativity, unit and monotonicity from the table of C01; the sum of a list by induction on the list.
Theorems: `C02_add_comm`, `C02_add_mono`, `C02_add_zero`, `C02_sum_exact`.

**C03 — Negation is an order-reversing involution and subtraction inverts addition** (proved; `Props/Duration.lean`).
Modelled: src/wins/timevalue.rs: impl Neg, Sub for TimeValue; src/wins/timestamp.rs: impl Sub, Add<TimeValue> for Timestamp.
Method: linear arithmetic; the compound operators are the plain ones.
Theorems: `C03_neg`, `C03_add_sub_cancel`, `C03_ts_sub_add`, `C03_operators`.

**C04 — just_after/just_before are the adjacent ticks and fix infinities** (proved; `Props/Duration.lean`).
Modelled: src/wins/timevalue.rs: TimePoint for TimeValue; src/lib.rs: trait TimePoint.
Method: case analysis at the two infinities.
Theorems: `C04_neighbours`, `C04_inverse`.

**C05 — Every duration built by the safe constructors stays in the documented range** (partial; `Props/Duration.lean`, `Props/ReleaseGraph.lean`).
Modelled: src/wins/timevalue.rs: from_ticks, from_secs, from_fract, from_years..from_nanos.
Method: range of each constructor by arithmetic on the shift and the clamp; a witness for the wrapping shift.
Theorems: `C05_arith_legal_partial`, `C05_from_secs_legal_partial`, `C05_from_secs_violated`, `C05_from_secs_exact_partial`, `C05_units_exact_partial`, `C05_fract_exact_partial`, `C05_fract_release_partial`.
Scope: Decided exactly: every count gives a legal duration, except the negative ones whose (whole, not saturated) number of seconds is 2^33 modulo 2^34; those give i64::MIN or panic. In a release build, what panics in a debug build gives a positive duration for a negative count (C05_fract_release_partial).

**C06 — Whole-second constructors are exact or saturate to the infinity of the same sign** (partial; `Props/Duration.lean`).
Modelled: src/wins/timevalue.rs: from_secs, from_mins, from_hours, from_days, from_weeks, from_months, from_years.
Method: arithmetic on the 30-bit shift modulo 2^64; a witness below the clamp.
Theorems: `C06_from_secs_partial`, `C06_units_partial`, `C06_from_secs_violated`, `C06_below_exact`.
Scope: Violated below -MAX_SEC (wraps); proved in range and above What a count below the range gives is decided exactly (C06_below_exact): from_secs wraps modulo 2^64 ticks, the longer units give 0.

**C07 — Sub-second constructors round towards zero by less than one tick** (proved; `Props/Duration.lean`).
Modelled: src/wins/timevalue.rs: from_fract, from_millis, from_micros, from_nanos.
Method: division with remainder of the two halves (seconds, fraction) put together again.
Theorems: `C07_subsec`, `C07_mono_odd`, `C07_underflow_violated`.
Scope: C07_underflow_violated concerns inputs outside the stated range. The clamping to -oo is violated in general: no count below the range gives -oo (C07_underflow_violated).

**C08 — as_secs and the subsec accessors decompose a duration** (proved; `Props/Duration.lean`).
Modelled: src/wins/timevalue.rs: as_secs, subsec_nanos, subsec_micros, subsec_millis; src/lib.rs: SUBSEC_BITMASK.
Method: division and modulus by powers of two.
Theorems: `C08_decompose`.

**C09 — Conversions to and from std/chrono durations lose at most one nanosecond** (proved; `Props/Duration.lean`).
Modelled: src/wins/timevalue.rs: From<time::Duration>, From<TimeValue> for time::Duration, From<chrono::Duration>.
Method: the error of two successive truncating divisions is bounded by one nanosecond.
Theorems: `C09_std_roundtrip`, `C09_std_negative`, `C09_chrono_overflow`, `C09_chrono_roundtrip`.

**C10 — floor gives the greatest multiple of the period not after the value** (proved; `Props/Duration.lean`).
Modelled: src/wins/timevalue.rs: TimeValue::floor; src/wins/timestamp.rs: Timestamp::floor.
Method: Euclidean division; greatest multiple by monotonicity of the product.
Theorems: `C10_floor`, `C10_floor_idem`.

**C11 — ceil gives the least multiple of the period not before the value** (partial; `Props/Duration.lean`).
Modelled: src/wins/timevalue.rs: TimeValue::ceil; src/wins/timestamp.rs: Timestamp::ceil.
Method: same as C10 on positive values; witnesses for the others.
Theorems: `C11_ceil_positive_partial`, `C11_ceil_nonpositive_partial`, `C11_ceil_violated`.
Scope: Violated: ceil of non-positive multiples and of negatives; proved for positive durations. ceil is wrong for every non-positive duration one tick above a multiple of the period (C11_ceil_violated).

**C12 — Unit truncation of a duration keeps whole units, towards zero** (partial; `Props/Duration.lean`).
Modelled: src/wins/convert.rs: impl IntoTimeValue for TimeValue.
Method: truncating division per unit; witnesses for the wrong units.
Theorems: `C12_trunc_nonneg_partial`, `C12_trunc_neg_partial`, `C12_secs_partial`, `C12_violated`.
Scope: Violated: months() uses the year length, nanos() of negatives loses a tick, secs() floors; other units proved. The violations are general: months is years for every duration, nanos is off by one for every negative one.

**C13 — Integer scaling of a duration is exact or saturates with the right sign** (partial; `Props/Duration.lean`).
Modelled: src/ops/scaling.rs: timevalscalingsmall, timevalscalingbig, timevalscalingubig.
Method: the 128-bit or saturating product compared with the exact one, type by type.
Theorems: `C13_mul_small_partial`, `C13_mul_inf`, `C13_mul_big_partial`, `C13_mul_big_violated`.
Scope: Violated for the 128-bit/unsigned multipliers with a huge factor; small multipliers proved.

**C14 — Integer division of a duration truncates towards zero and keeps infinities infinite** (partial; `Props/Duration.lean`).
Modelled: src/ops/scaling.rs: Div for TimeValue.
Method: truncating division; witness on the infinities.
Theorems: `C14_div_finite_partial`, `C14_div_exact`, `C14_div_inf_violated`.
Scope: Violated: an infinite duration divided is finite; finite durations proved Division is decided exactly for every legal duration and integer type (C14_div_exact): the infinities are divided as tick counts.

**C15 — Interval constructors denote exactly the dates they name and are never ill-formed** (proved; `Props/Interval.lean`).
Modelled: src/wins/timeinterval.rs: TimeInterval::new, singleton, after, before, all, empty.
Method: membership of each constructor unfolded, by cases on the bounds.
Theorems: `C15_dates`, `C15_wellformed`, `C15_is_empty`.

**C16 — Rust ranges used as windows denote their usual set** (partial; `Props/Exact.lean`, `Props/Interval.lean`).
Modelled: src/ops/range.rs.
Method: the bounds computed for each of the Rust ranges, by cases; witnesses next to an infinity.
Theorems: `C16_is_empty_exact`, `C16_dates`, `C16_predicates_partial`, `C16_predicates_violated`.
Scope: Predicates violated for ranges touching an infinity. C16_is_empty_exact decides is_empty outright, with and without dates.

**C17 — Interval intersection contains exactly the common dates** (proved; `Props/Interval.lean`).
Modelled: src/ops/intersect.rs: BitAnd, BitAndAssign for TimeInterval.
Method: max of the lower bounds and min of the upper ones.
Theorems: `C17_inter`.

**C18 — An interval reports empty iff it contains no date** (partial; `Props/Interval.lean`).
Modelled: src/wins/timeinterval.rs: TimeBounds::is_empty; src/ops/intersect.rs.
Method: is_empty tests the one empty value; witness with crossed bounds.
Theorems: `C18_is_empty_partial`, `C18_inter_violated`.
Scope: Violated: intersection of disjoint intervals yields crossed bounds that is_empty does not see.

**C19 — Interval union contains exactly the dates of both and is canonical** (proved; `Props/Interval.lean`).
Modelled: src/ops/union.rs: BitOr for TimeInterval, TimeValue, Timestamp.
Method: cases on the relative positions of the two intervals.
Theorems: `C19_union`.

**C20 — Interval and point complement contain exactly the other dates** (proved; `Props/Interval.lean`).
Modelled: src/ops/compl.rs.
Method: cases on the infinite bounds.
Theorems: `C20_compl`, `C20_point_compl`.

**C21 — Interval truncation keeps exactly the dates on the right side and reports change truthfully** (proved; `Props/Interval.lean`).
Modelled: src/wins/timeinterval.rs: TimeTruncation for TimeInterval.
Method: cases on the position of the cut.
Theorems: `C21_truncate`.

**C22 — Interval translation is the exact Minkowski sum** (proved; `Props/Interval.lean`).
Modelled: src/ops/transl.rs; src/wins/timeinterval.rs: Neg.
Method: for each date of the sum two summands are exhibited; conversely by monotonicity.
Theorems: `C22_add_span`, `C22_neg`, `C22_sub_span`, `C22_translate`, `C22_timestamp_forms`.

**C23 — Boundedness predicates match the documentation** (partial; `Props/Exact.lean`, `Props/Interval.lean`).
Modelled: src/wins/mod.rs: TimeBounds; src/wins/timeinterval.rs: TimeBounds for TimeInterval.
Method: unfolding on a well-formed interval; witness on the empty one.
Theorems: `C23_disjoint_violated`, `C23_predicates_partial`, `C23_range_singleton`, `C23_empty_violated`, `C23_ranges`.
Scope: Violated on the empty interval; proved on every non-empty one. C23_disjoint_violated generalises the violation.

**C24 — centered and enlarge build the documented interval** (proved; `Props/Interval.lean`).
Modelled: src/wins/timeinterval.rs: centered, enlarge.
Method: arithmetic on the midpoint and the bounds.
Theorems: `C24_centered`, `C24_enlarge`, `C24_shrink`.

**C25 — Convex containment and overlap tests decide subset and intersection** (partial; `Props/Exact.lean`, `Props/Interval.lean`).
Modelled: src/relns/contain.rs; src/relns/overlap.rs.
Method: both directions by choosing the extreme dates as witnesses; violations on empty operands.
Theorems: `C25_contains_exact`, `C25_overlaps_exact`, `C25_contains_partial`, `C25_overlaps_partial`, `C25_overlaps_symm`, `C25_violated`.
Scope: Violated when an empty interval is involved or a bound sits next to an infinity; proved otherwise. C25_contains_exact and C25_overlaps_exact decide both answers outright for every pair of windows.

**C26 — Slot duration is the distance between its bounds** (proved; `Props/Interval.lean`).
Modelled: src/wins/timeinterval.rs: TimeSlot::duration.
Method: definition and saturation of the difference.
Theorems: `C26_duration`.

**C27 — Set complement contains exactly the other dates and is canonical** (proved; `Props/Set.lean`).
Modelled: src/ops/compl.rs: Not for TimeSet.
Method: induction on the list with the lower bound of the current gap generalised.
Theorems: `C27_compl`.

**C28 — Double complement is the identity** (proved; `Props/Set.lean`).
Modelled: src/ops/compl.rs: Not for TimeSet.
Method: C27 twice, then extensionality of canonical lists (C34).
Theorems: `C28_double_compl`.

**C29 — Set union never invents a date** (proved; `Props/Set.lean`).
Modelled: src/iter/union.rs: IterUnion; src/ops/union.rs.
Method: invariant of the merging state machine: every pending bound belongs to an operand; induction on the remaining items.
Theorems: `C29_union_sound`, `C29_union_convex_sound`.

**C30 — Set union never loses a date** (partial; `Props/Set.lean`, `Props/SetLaws.lean`, `Props/UnionExact.lean`).
Modelled: src/iter/union.rs: IterUnion; src/ops/union.rs.
Method: completeness of the same machine under the condition which excludes the faulty state; a family of witnesses in it.
Theorems: `C30_union_complete_partial`, `C30_union_violated`, `C30_union_exact`, `C30_lossless_exact`, `C30_union_convex_partial`, `C30_one_order`, `C30_union_convex_exact`.
Scope: Violated: the union iterator drops the tail of the left operand when the right operand ends first. Decided exactly: C30_union_exact says which intervals two sets keep (ties of ends included), C30_lossless_exact when nothing is lost, C30_union_convex_exact what a set and a window keep; of a | b and b | a, one at least is complete.

**C31 — Set union is canonical** (proved; `Props/Set.lean`).
Modelled: src/iter/union.rs: IterUnion.
Method: the emitted intervals are separated: invariant on the last emitted upper bound.
Theorems: `C31_union_canonical`, `C31_union_convex_canonical`, `C31_from_sets_canonical`.

**C32 — Set intersection contains exactly the common dates** (proved; `Props/Set.lean`).
Modelled: src/iter/intersect.rs: IterIntersection; src/ops/intersect.rs.
Method: invariant of the intersection state machine, soundness and completeness, induction on the remaining items.
Theorems: `C32_inter`, `C32_inter_convex`.

**C33 — Set intersection is canonical and is empty iff there is no common date** (partial; `Props/Set.lean`).
Modelled: src/iter/intersect.rs: IterIntersection; src/ops/intersect.rs.
Method: the same invariant with the separation; exact condition for the spurious interval.
Theorems: `C33_inter_canonical_partial`, `C33_inter_exact`, `C33_inter_violated`, `C33_inter_touch_violated`.
Scope: Decided exactly: the intersection is canonical iff no interval of one set starts right after the end of an interval of the other (C33_inter_exact); violated in that case (spurious dateless interval).

**C34 — Sets with the same dates compare equal** (proved; `Props/Set.lean`).
Modelled: src/relns/ordering.rs: PartialEq for TimeSet, TimeInterval.
Method: two canonical lists with the same dates are equal, by induction on both.
Theorems: `C34_set_eq`, `C34_iv_set_eq`.

**C35 — Set containment decides subset** (partial; `Props/Exact.lean`, `Props/SetRel.lean`).
Modelled: src/relns/contain.rs: TimeContaining for TimeSet.
Method: refinement of the double loop to the subset relation, by induction; witness next to an infinity.
Theorems: `C35_contains_exact`, `C35_contains_empty_exact`, `C35_contains_set_exact`, `C35_convex_contains_set_exact`, `C35_contains_partial`, `C35_contains_set_partial`, `C35_convex_contains_set_partial`, `C35_violated`.
Scope: Decided exactly: C35_contains_exact, C35_contains_empty_exact, C35_contains_set_exact, C35_convex_contains_set_exact; the English property is violated for empty windows and next to an infinity.

**C36 — Set overlap decides non-empty intersection** (partial; `Props/Exact.lean`, `Props/SetRel.lean`).
Modelled: src/relns/overlap.rs: TimeOverlapping.
Method: induction on the set for each kind of window.
Theorems: `C36_overlaps_exact`, `C36_overlaps_partial`, `C36_overlaps_set`, `C36_violated`.
Scope: Decided exactly by C36_overlaps_exact; the English property is violated when the window is empty.

**C37 — Set truncation and in-place intersection with a window are exact** (proved; `Props/SetRel.lean`).
Modelled: src/wins/timeset.rs: TimeTruncation for TimeSet; src/ops/intersect.rs: BitAndAssign for TimeSet.
Method: induction on the list, with the report of a change.
Theorems: `C37_truncate_before`, `C37_truncate_after`, `C37_inter_assign`, `C37_truncate_infinite_violated`.
Scope: Proved for the finite cut points the property ranges over; the _violated theorem says what happens for infinite ones, for every set.

**C38 — Collecting intervals into a set yields their union** (partial; `Props/Collect.lean`, `Props/Set.lean`, `Props/SetArith.lean`, `Props/UnionExact.lean`).
Modelled: src/wins/timeset.rs: FromIterator<TimeInterval> for TimeSet; src/wins/timeset.rs: FromIterator<TimeSet>.
Method: invariant of the fold of unions; witnesses for unsorted inputs.
Theorems: `C38_collect_left`, `C38_lossless_exact`, `C38_collect_sets_violated`, `C38_collect_decreasing_violated`, `C38_collect_partial`, `C38_collect_sets_partial`, `C38_collect_sound_partial`, `C38_collect_exact`, `C38_collect_violated`, `C38_collect_empty_violated`.
Scope: Violated for unsorted intervals (union bug), and for empty intervals after a non-empty one, both in general; of a decreasing sequence only the last two intervals are collected. Decided exactly for every list: C38_collect_left says which dates are left, C38_lossless_exact when nothing is lost.

**C39 — Negating a set mirrors it** (proved; `Props/SetArith.lean`).
Modelled: src/wins/timeset.rs: Neg for TimeSet.
Method: reversal of the list and mirror of each interval.
Theorems: `C39_neg`.

**C40 — Translating a set by a duration shifts every date** (proved; `Props/SetArith.lean`).
Modelled: src/ops/transl.rs: Add<TimeValue> for TimeSet.
Method: map over the list with saturation at the ends; the two neighbours of a saturated bound.
Theorems: `C40_add`, `C40_sub`, `C40_timestamp`.

**C41 — Translating a set by a span is the Minkowski sum** (proved; `Props/SetArith.lean`).
Modelled: src/ops/transl.rs: Add<TimeSpan> for TimeSet; src/iter/transl.rs.
Method: same, joining intervals which meet.
Theorems: `C41_add_span`, `C41_sub_span`.

**C42 — Adding a set of spans is the Minkowski sum** (partial; `Props/Collect.lean`, `Props/SetArith.lean`, `Props/UnionExact.lean`).
Modelled: src/ops/transl.rs: Add<TimeSpans> for TimeSet.
Method: soundness by induction on both sets; completeness when one is convex; witness otherwise.
Theorems: `C42_add_spans_exact`, `C42_sub_spans_exact`, `C42_sub_spans_violated`, `C42_add_spans_sound_partial`, `C42_add_spans_partial`, `C42_convex_operand_partial`, `C42_sub_spans_sound_partial`, `C42_violated`.
Scope: Violated: sums are collected in an order that loses points, for every interleaving pair and triple (C42_violated); a bounded interval minus spans far apart keeps the last two spans only (C42_sub_spans_violated). Decided exactly for all operands without overflow: C42_add_spans_exact, C42_sub_spans_exact say which dates are left.

**C43 — Scaling a set by a non-zero integer maps every date and keeps the set canonical** (partial; `Props/SetArith.lean`).
Modelled: src/ops/scaling.rs: Mul/MulAssign for TimeSpans.
Method: monotone map of the bounds, canonical form by the gap times the factor; witness beyond i64.
Theorems: `C43_mul_partial`, `C43_violated`.
Scope: Violated for every non-empty set and every factor beyond i64 (128-bit scale type): a panic; proved within.

**C44 — Scaling a non-empty set by zero gives {0}** (partial; `Props/SetArith.lean`).
Modelled: src/ops/scaling.rs: Mul for TimeSpans, n == 0.
Method: a general theorem: every non-empty set gives the wrong result.
Theorems: `C44_mul_zero_partial`, `C44_violated`.
Scope: Violated for every non-empty set: the product by 0 is a set holding one empty interval.

**C45 — Dividing a set by an integer keeps it canonical and maps every date** (proved; `Props/SetArith.lean`).
Modelled: src/ops/scaling.rs: DivAssign for TimeSpans, check_joined_inners.
Method: monotone map by truncating division, joining the intervals which meet.
Theorems: `C45_div`.

**C46 — The complement iterator agrees with the ! operator** (proved; `Props/Set.lean`).
Modelled: src/iter/compl.rs: IterComplementary.
Method: the iterator and the operator are the same recursion.
Theorems: `C46_compl_iter`.

**C47 — The exclusion iterator removes exactly the excluded dates** (proved; `Props/Set.lean`).
Modelled: src/iter/excl.rs.
Method: complement then intersection, from C27 and C32.
Theorems: `C47_exclusion`.

**C48 — Chained lazy iterators give the same result as the operators** (partial; `Props/Chain.lean`, `Props/Set.lean`).
Modelled: README.md; src/iter/mod.rs; src/ops/union.rs; src/ops/intersect.rs.
Method: equality of the lazy machine run to exhaustion with the operator; induction on chains of any depth.
Theorems: `C48_any_chain_partial`, `C48_violated`, `C48_chain`.
Scope: The README pipelines on all canonical sets; any chain whose intersections do not touch, whose translations and scalings do not overflow and whose factors are positive. Violated for all intervals that touch: !(i & j) is not what the lazy complement of the intersection collects to.

**C49 — Before/after comparison of windows is sound and complete** (proved; `Props/Order.lean`, `Props/SetRel.lean`).
Modelled: src/relns/ordering.rs.
Method: for windows with a date, by extreme dates; equality next to the infinities by the uniqueness of canonical forms on an extended time line (C49_eq_exact).
Theorems: `C49_eq_exact`, `C49_lt`, `C49_eq`, `C49_partial_cmp`, `C49_strict_order`.

**C50 — Set bounds, envelope and counts describe the set** (partial; `Props/SetRel.lean`).
Modelled: src/wins/timeset.rs: TimeBounds, TimeWindow for TimeSet; src/wins/mod.rs: TimeWindow.
Method: by cases on the list, and by induction for the counts.
Theorems: `C50_bounds`, `C50_predicates`, `C50_convex_count`, `C50_is_all_partial`, `C50_is_all_violated`.
Scope: Is_all is violated by the empty set, which claims to contain every date; everything else proved.

**C51 — Window iterators are fused and finite** (proved; `Props/SetRel.lean`).
Modelled: src/iter/union.rs; src/iter/intersect.rs; src/iter/compl.rs.
Method: a measure of the state machine decreases at every step; after None the state is stuck.
Theorems: `C51_union_fused`, `C51_inter_fused`, `C51_compl_fused`.

**C52 — size_hint of the window iterators bounds the number of remaining items** (partial; `Props/Hints.lean`, `Props/Lazy.lean`, `Props/SetRel.lean`).
Modelled: src/iter/union.rs: size_hint; src/iter/intersect.rs: size_hint; src/iter/compl.rs: size_hint.
Method: the measure of C51 compared with the hint; witnesses for the wrong upper bounds; for pipelines, a relation "yields these items and announces rightly up to n before each of them" shown stable by every stage, by induction on the pipeline.
Theorems: `C52_pipeline_partial`, `C52_plain_pipeline`, `C52_pipeline_violated`, `C52_new_pipeline`, `C52_inter_hint`, `C52_union_hint_partial`, `C52_compl_hint_partial`, `C52_union_violated`, `C52_compl_violated`.
Scope: Lower bounds and intersections: all states. Violated: the upper bounds of the union and of the complement are too small in every state described by C52_union_violated and C52_compl_violated; proved otherwise. A new pipeline of any depth announces right bounds (C52_new_pipeline). At any point of any pipeline the lower bound is right and the upper bound is short by at most the number of unions and complements (C52_pipeline_partial), a bound that is reached (C52_pipeline_violated); without them both bounds are right (C52_plain_pipeline).

**C53 — A forward sequence yields start, start+period, start+2*period, ... until the end of time** (partial; `Props/Seq.lean`).
Modelled: src/seq/forward.rs: next, new; src/seq/mod.rs.
Method: induction on the number of calls.
Theorems: `C53_forward_partial`, `C53_accepted`, `C53_violated`.
Scope: Violated for starts within one period of the beginning of time (constructor panics); proved otherwise.

**C54 — len/size_hint/count of a sequence equal the number of elements it yields** (partial; `Props/Seq.lean`).
Modelled: src/seq/forward.rs: len; src/seq/backward.rs: len.
Method: exact characterisation of the states in which len is right; witnesses.
Theorems: `C54_forward_partial`, `C54_forward_violated`, `C54_backward_partial`, `C54_backward_violated`.
Scope: Violated (operator precedence, off by one): exact characterisation of the states in which len is right and wrong.

**C55 — nth(n) equals n+1 calls to next()** (partial; `Props/Seq.lean`).
Modelled: src/seq/forward.rs: nth; src/seq/backward.rs: nth.
Method: general theorem on the difference between nth(n) and n+1 calls.
Theorems: `C55_nth_beyond_partial`, `C55_violated`, `C55_backward_violated`, `C55_exact_partial`, `C55_backward_exact_partial`.
Scope: Decided exactly: nth(n) agrees with n+1 calls of next() iff n is beyond the remaining length; violated for every element (it behaves like n calls).

**C56 — A backward sequence yields start, start-period, start-2*period, ...** (partial; `Props/Seq.lean`).
Modelled: src/seq/backward.rs: new, next.
Method: induction on the number of calls; the first element is wrong for every start.
Theorems: `C56_backward_partial`, `C56_accepted`, `C56_violated`.
Scope: Violated for every start: the first element is start-2*period; the rest of the behaviour proved.

**C57 — forward_periods yields exactly the multiples of the period from the start on** (partial; `Props/Seq.lean`).
Modelled: src/seq/mod.rs: forward_periods; src/wins/timestamp.rs: ceil.
Method: C53 with the rounded start, from C11.
Theorems: `C57_forward_periods_partial`, `C57_violated`.
Scope: Violated exactly where Timestamp::ceil is: non-positive starts with start-1 a multiple of the period; proved otherwise.

**C58 — Graph storage keeps every pair of instants in its own cell, unaffected by growth** (proved; `Props/Graph.lean`).
Modelled: src/graph/storage.rs: lower, lower_mut, resize, timespan.
Method: injectivity and surjectivity of the numbering of the cells (squares and rests), frame property of writes.
Theorems: `C58_cells_injective`, `C58_cells_cover`, `C58_write_read`, `C58_resize`.
Scope: Cells of distinct pairs never collide, every allocated cell is used, a write is read back; growing and shrinking keep the spans.

**C59 — No operation reads or writes outside the graph's memory** (proved; `Props/GraphSafe.lean`).
Modelled: src/graph/storage.rs; src/graph/propagation.rs; src/graph/constraints.rs.
Method: a Hoare-style invariant (valid, allocated) over all the operations and histories of them; the only allowed panic is the sum of opposite infinities.
Theorems: `C59_operation`, `C59_history`, `C59_start`, `C59_queries`, `C59_limit`, `C59_clean`, `C59_tidy`.
Scope: Histories of propagate, extend, merge, resize, reset, shrink_to_fit with arbitrary bounds: the only possible panic is the sum of opposite infinities. Queries never panic. Limit at 65535 instants proved sharp.

**C60 — propagate reports Unchanged iff the constraint already follows** (proved; `Props/Graph.lean`, `Props/GraphAny.lean`).
Modelled: src/graph/propagation.rs: propagate.
Method: closure of the matrix: a bound which is not implied is missed by some solution (extension lemma for solutions). The decision involves no sum, so any bounds are allowed.
Theorems: `C60_unchanged_iff`, `C60_unchanged_any_bounds`.
Scope: On a minimal graph whatever the bounds are (any_bounds); that the call returns without panic is proved for bounds at most B, 9·B < 2^63-1.

**C61 — propagate fails iff the constraint contradicts the graph, and then leaves it untouched** (proved; `Props/Graph.lean`, `Props/GraphAny.lean`).
Modelled: src/graph/propagation.rs: propagate.
Method: same; a delay allowed by both is extended to a solution.
Theorems: `C61_recovered_iff`, `C61_empty_rejected`, `C61_empty_window`, `C61_recovered_any_bounds`.
Scope: On a minimal graph whatever the bounds are (any_bounds); that the call returns without panic is proved for bounds at most B, 9·B < 2^63-1. An empty constraint is always rejected.

**C62 — Successful propagation keeps exactly the assignments satisfying old graph and new constraint** (partial; `Props/Graph.lean`, `Props/GraphAny.lean`).
Modelled: src/graph/propagation.rs: propagate, propagate_lower_bound.
Method: exact deduction of the incremental update. For any bounds: everything deduced is true of the representable solutions, and a panic implies that there is none.
Theorems: `C62_window_constraint`, `C62_window_usable`, `C62_solutions`, `C62_solutions_growth`, `C62_self_violated`, `C62_any_bounds`.
Scope: Exact solutions in place and on growth; with any bounds and on any graph, exact for the solutions with representable delays, and no panic if there is one (any_bounds). Violated only for a constraint from a new instant to itself: every such one without 0 is accepted, on every graph.

**C63 — The graph is always minimal: every announced duration is achievable** (proved; `Props/Graph.lean`, `Props/GraphAny.lean`, `Props/GraphBatch.lean`).
Modelled: src/graph/propagation.rs: propagate, propagate_lower_bound; src/graph/storage.rs: timespan.
Method: invariant of the histories: closed and tight matrix, solutions of the accepted constraints; for any bounds, C62 along the history.
Theorems: `C63_history`, `C63_any_bounds`, `C63_from_minimal`.
Scope: Minimality: any number of calls, bounds at most W with 3·n·W < 2^63-1. With any bounds, from any state and with growth: exactly the representable solutions of the accepted constraints, and no panic if all can be satisfied (any_bounds).

**C64 — Propagating a constraint on an instant not yet in the graph keeps the graph minimal** (partial; `Props/Graph.lean`).
Modelled: src/graph/propagation.rs: propagate (size() <= max branch).
Method: the matrix after growth is computed; minimality when both instants are new; witness otherwise.
Theorems: `C64_growth_partial`, `C64_exact_partial`, `C64_exact_reverse_partial`, `C64_deduction_violated`, `C64_growth_violated`.
Scope: Growth keeps the exact solutions but does not deduce: the grown graph is minimal iff nothing is to be deduced (C64_exact), violated for every graph and constraint with a deduction.

**C65 — extend succeeds iff all constraints are jointly satisfiable, and then yields the minimal graph** (partial; `Props/GraphAny.lean`, `Props/GraphBatch.lean`).
Modelled: src/graph/propagation.rs: extend, global_propagation.
Method: stages of Floyd–Warshall in place: closure invariant, and every intermediate value is the length of a simple path, hence no saturation. For any bounds as in C62.
Theorems: `C65_any_bounds`, `C65_contradiction`, `C65_contradicts_graph`, `C65_empty_panics_violated`, `C65_extend`, `C65_single`, `C65_empty_interval_violated`.
Scope: Minimality: bounds at most W with 3·n·W < 2^63-1; with any bounds, exactly the representable solutions (any_bounds), and what contradicts a bound of the batch or of the graph between two instants is never accepted (contradiction, contradicts_graph). For iterators not announcing at most one item (otherwise extend is propagate). Violated by the empty interval in a batch: on every new graph of at least three instants, panic instead of Err(Fatal).

**C66 — A fatal inconsistency empties the graph** (partial; `Props/GraphBatch.lean`).
Modelled: src/graph/propagation.rs: global_propagation; src/graph/storage.rs: resize.
Method: the size is 0 and everything follows; witness of the bounds coming back.
Theorems: `C66_fatal_partial`, `C66_propagate_never_fatal`, `C66_stale_violated`.
Scope: After Err(Fatal) nothing can be read and reset/resize(0) give a new graph; violated otherwise: the old bounds reappear when the graph grows.

**C67 — merge intersects the solution sets** (proved; `Props/GraphAny.lean`, `Props/GraphBatch.lean`).
Modelled: src/graph/propagation.rs: merge.
Method: max of the two matrices, then the closure of C65; for any bounds as in C62.
Theorems: `C67_any_bounds`, `C67_contradiction`, `C67_merge`, `C67_unchanged`, `C67_symmetric`.
Scope: Minimality: bounds at most W with 3·n·W < 2^63-1; with any bounds, exactly the representable common solutions (any_bounds). C67_unchanged decides when a merge answers Unchanged. Two graphs that leave no common delay between two instants are never merged, whatever the bounds (contradiction).

**C68 — Order and batching of constraints do not matter** (proved; `Props/GraphBatch.lean`).
Modelled: src/graph/propagation.rs: propagate, extend.
Method: uniqueness of the closed matrix of a set of solutions.
Theorems: `C68_order`, `C68_extend_order`.
Scope: Bounds at most W with 3·n·W < 2^63-1; permutations of propagate, extend against propagate, and permutations of extend.

**C69 — Instant comparison is decided by the constraints** (proved; `Props/Graph.lean`).
Modelled: src/graph/storage.rs: instant_cmp, are_distinct_instants.
Method: closure and extension lemma on minimal graphs.
Theorems: `C69_instant_cmp`, `C69_out_of_range`, `C69_are_distinct`.
Scope: On minimal graphs, in and out of range.

**C70 — timespan and constraint views are consistent and antisymmetric** (proved; `Props/Graph.lean`).
Modelled: src/graph/storage.rs: timespan; src/graph/constraints.rs: constraint, TimeGraphConstraint; src/graph/mod.rs: TimeConstraint::equiv.
Method: the two views unfolded to the two cells of the pair.
Theorems: `C70_antisymmetric`, `C70_constraint`, `C70_to_tuple`, `C70_equiv`, `C70_equiv_sound`.
Scope: All graphs; equiv between two distinct instants.

**C71 — iter enumerates each constrained pair exactly once** (proved; `Props/GraphIter.lean`).
Modelled: src/graph/constraints.rs: TimeConstraintIter.
Method: invariant of the iterator: position in the enumeration of the pairs.
Theorems: `C71_iter`.
Scope: All graphs of at most 65535 instants.

**C72 — constraints_from and constraints_to enumerate every constraint of an instant** (partial; `Props/GraphIter.lean`).
Modelled: src/graph/constraints.rs: TimeConstraintFromIter, constraints_to.
Method: same; witness of the wrong first pair.
Theorems: `C72_from_partial`, `C72_out_of_range`, `C72_to`, `C72_first_violated`.
Scope: Every constrained pair is yielded once; violated: the pair (i,0) is always yielded first, even if it is not constrained or i=0.

**C73 — Rebuilding a graph from its own constraints gives the same graph** (proved; `Props/GraphIter.lean`).
Modelled: src/graph/constraints.rs: iter, FromIterator; src/graph/propagation.rs: extend.
Method: C65 on the list of C71, and uniqueness of the closed matrix.
Theorems: `C73_rebuild`.
Scope: Extend of with_size(n) and FromIterator; bounds at most W with 3·n·W < 2^63-1.

**C74 — reset, resize and shrink_to_fit touch only what they document** (proved; `Props/GraphSafe.lean`).
Modelled: src/graph/storage.rs: reset, resize, shrink_to_fit.
Method: each operation on the list of cells, as a matrix.
Theorems: `C74_reset`, `C74_resize`, `C74_grow`, `C74_shrink`.
Scope: All graphs; resize for graphs without hidden constraints (kept by all operations except a fatal failure, C59_clean).

**C75 — retain reports Unchanged/Recovered truthfully and leaves the schedule untouched then** (partial; `Props/SchedAnswers.lean`, `Props/Scheduler.lean`).
Modelled: src/graph/scheduler.rs: retain.
Method: the result of retain by cases on the intersections; witness with an empty window.
Theorems: `C75_reached_partial`, `C75_reached_remove_partial`, `C75_reached_clean_partial`, `C75_reached_clean_remove_partial`, `C75_reached_violated`, `C75_untouched`, `C75_unknown`, `C75_unchanged`, `C75_recovered_partial`, `C75_remove`, `C75_violated`.
Scope: Every canonical schedule and proper window. Violated: every empty range or interval on an unconstrained instant is accepted as Propagated and empties the schedule. After any history of requests (C75_reached_partial) Unchanged and Recovered are still truthful, but an instant whose slots show an interval [c, c-1] without a date accepts [c-1, c] although it has no date there, and is left without one (C75_reached_violated); without such an interval the answers are exact (C75_reached_clean_partial). C75_reached_remove_partial and C75_reached_clean_remove_partial are the same for remove.

**C76 — The scheduler never discards a feasible date** (partial; `Props/SchedExact.lean`, `Props/Scheduler.lean`).
Modelled: src/graph/scheduler.rs: retain, propagate_scheduling.
Method: invariant: every feasible assignment stays in the slots, along any history.
Theorems: `C76_debug_exact`, `C76_remove_debug_exact`, `C76_history`, `C76_call`, `C76_debug_partial`, `C76_debug_violated`.
Scope: Any history of retain and remove with any windows, bounds W + n·B < 2^63-1; release builds always return. Violated in debug builds only: removing the last dates of instant 0 fails a debug assertion. When a set or a removal fails the debug assertion is decided (C76_debug_exact, C76_remove_debug_exact): iff it is accepted, is side by side with (for remove: ends or starts with) an interval of the slots, and the instant is 0 or at a fixed delay from another.

**C77 — The scheduler keeps no date outside the requested window or unsupported by instant i** (partial; `Props/SchedExact.lean`, `Props/SchedPieces.lean`, `Props/Scheduler.lean`).
Modelled: src/graph/scheduler.rs: retain, propagate_scheduling.
Method: slots only shrink and stay in the accepted windows; exactness when windows do not touch the slots; after any history, each propagation is computed interval by interval from the slots left, empty intervals included.
Theorems: `C77_retain_exact`, `C77_remove_exact`, `C77_pieces`, `C77_clean`, `C77_history`, `C77_shrinks`, `C77_retain_partial`, `C77_remove_partial`, `C77_violated`.
Scope: No date is added and all accepted windows hold after any history; exactness of the propagation proved when windows do not touch the slots, violated otherwise (remove keeps unsupported dates of other instants). What sets and removals keep is decided exactly (C77_retain_exact, C77_remove_exact): besides the supported dates, those at an allowed delay from both sides of a point where the slots and the set are side by side. After any history, the rule is decided too (C77_pieces): the only unsupported dates kept are those reached from both ends of an interval [c, c-1] left in the slots, and there are none when the slots show no such interval (C77_clean).

**C78 — With convex windows every remaining date is part of a full solution** (partial; `Props/SchedConvex.lean`).
Modelled: src/graph/scheduler.rs: retain, propagate_scheduling, new.
Method: the date origin as an extra node: convex schedules are closed matrices; extension lemma.
Theorems: `C78_history_partial`, `C78_extends_partial`, `C78_next_partial`, `C78_empty_violated`.
Scope: Histories of retain (non-empty intervals, dates, ranges), set_deadline and set_startline on minimal graphs, W + 2B < 2^63-1, debug and release builds: slots characterise exactly the assignments allowed, every date extends to one, the next call is refused iff no assignment is left. Violated by every empty range on an unconstrained instant of every graph (accepted).

**C79 — set_deadline and set_startline bound every instant and never panic on consistent schedules** (partial; `Props/LinesReached.lean`, `Props/SchedConvex.lean`).
Modelled: src/graph/scheduler.rs: set_deadline, set_startline.
Method: same as C78 with the windows of the two calls.
Theorems: `C79_reached_deadline_partial`, `C79_reached_startline_partial`, `C79_reached_violated`, `C79_deadline_partial`, `C79_startline_partial`, `C79_violated`, `C79_deadline_unchanged`, `C79_startline_unchanged`.
Scope: Same histories, finite dates and the neutral infinity. Violated by set_deadline(-oo) and set_startline(+oo): accepted with all slots emptied (debug assertion in debug builds). The deadline -oo is never refused while the slots are unbounded (C79_violated, any schedule). When set_deadline and set_startline answer Ok(Unchanged) is decided (C79_deadline_unchanged, C79_startline_unchanged). The reached_ theorems hold after histories with any windows and sets: Ok leaves no date on the wrong side, Err(Recovered) changes nothing and is only said when some instant has no date on the right side; but it is not always said then (C79_reached_violated): slots which begin with an interval without a date hide it, and the deadline is accepted and leaves the instant without a date.

**C80 — earliest_ending and latest_beginning are the documented extrema** (proved; `Props/Scheduler.lean`).
Modelled: src/graph/scheduler.rs: latest_beginning, earliest_ending.
Method: induction on the list of slots.
Theorems: `C80_bounds`, `C80_latest_beginning`, `C80_earliest_ending`.
Scope: C80_bounds covers all schedules; the dates behind the bounds are described for canonical ones.

**C81 — Displayed durations denote the duration to the nanosecond** (partial; `Props/Format.lean`).
Modelled: src/wins/format.rs: format_duration, Display for TimeValue.
Method: division with remainder per unit; the text is parsed back; the unit boundaries are characterised.
Theorems: `C81_words`, `C81_others`, `C81_text_determines`, `C81_reduced_partial`, `C81_violated`.
Scope: Value, order, sign and infinities proved for every duration, and that the text determines the duration to one tick; the counts are below the next unit except when the sub-second part is exactly 1 ms or ends with 1000 ns. Violated there: 1 ms is printed 1000us. The violation is general: every rest of exactly one millisecond or one microsecond is written as 1000us or 1000ns.

**C82 — Debug output of windows is faithful** (proved; `Props/Format.lean`).
Modelled: src/wins/format.rs: Debug for TimeValue, TimeInterval, TimeSet.
Method: injectivity of the texts, by structural induction.
Theorems: `C82_sets`, `C82_timestamp_sets`, `C82_values`, `C82_shape`.
Scope: All durations, timestamps and canonical sets of both, the empty one included.

**C83 — Compound assignment agrees with the plain operator on intervals and sets** (partial; `Props/Overflow.lean`, `Props/SetArith.lean`).
Modelled: src/ops/transl.rs: AddAssign, SubAssign.
Method: the assignment operators against the plain ones; witness on singletons.
Theorems: `C83_exact`, `C83_set_exact`, `C83_interval_partial`, `C83_set_partial`, `C83_violated`.
Scope: Violated for single dates: += and -= panic. When they panic is decided for all operands (C83_exact, C83_set_exact): exactly when both operands are single dates (for sets: an interval is one) whose sum is representable; otherwise += is + as soon as there is a representable sum.

**C84 — size_hint of the graph iterators is safe and bounds the number of remaining constraints** (partial; `Props/GraphIter.lean`, `Props/ReleaseGraph.lean`).
Modelled: src/graph/constraints.rs: size_hint of TimeConstraintIter, TimeConstraintFromIter.
Method: the exact count of remaining pairs; overflow once exhausted.
Theorems: `C84_iter_partial`, `C84_exhausted_violated`, `C84_from_partial`, `C84_from_exhausted_violated`, `C84_release`, `C84_release_exhausted`.
Scope: Proved while constraints are left; violated once exhausted (u32 overflow) for every graph of at least two instants. In a release build the upper bound is right at every point, even after the end (C84_release), where it is 2^32 + 1 - size (C84_release_exhausted).

**C85 — Lazy translation and scaling iterators yield every interval** (partial; `Props/FloatSet.lean`, `Props/Overflow.lean`, `Props/SetArith.lean`).
Modelled: src/iter/transl.rs: TimeValueTranslIter; src/iter/scaling.rs: TimeValueScaleIter.
Method: run of the lazy iterator against the map of the operator.
Theorems: `C85_float`, `C85_translation_exact`, `C85_translation_partial`, `C85_scaling_partial`, `C85_violated`.
Scope: Violated in case of overflow without debug assertions: the iteration stops at the first interval which overflows as a whole. What is yielded is decided for every translation in both builds (C85_translation_exact).

**C86 — increment() is the signed step of a sequence** (partial; `Props/Seq.lean`).
Modelled: src/seq/forward.rs: increment, period; src/seq/backward.rs: increment, period.
Method: computed for both directions.
Theorems: `C86_increment_partial`, `C86_violated`.
Scope: Violated for every forward sequence (increment() has the wrong sign); proved for backward ones.

**C87 — Reversing a sequence goes back over the elements already yielded** (partial; `Props/Seq.lean`).
Modelled: src/seq/forward.rs: reverse; src/seq/backward.rs: reverse.
Method: induction on the number of calls; an exhausted sequence is a fixed point of next once reversed.
Theorems: `C87_reverse_forward_partial`, `C87_reverse_backward_partial`, `C87_exhausted_violated`.
Scope: Proved as long as the last call of next() has returned an element. Violated by every sequence whose end has been reached: once reversed it yields +oo (-oo) for ever (C87_exhausted_violated).

**C88 — last() is the last element of a sequence** (partial; `Props/Seq.lean`).
Modelled: src/seq/forward.rs: last; src/seq/backward.rs: last.
Method: from the value of len and nth; both directions.
Theorems: `C88_last_partial`, `C88_violated`, `C88_backward_last_partial`, `C88_backward_violated`.
Scope: Violated in every state where len() is wrong; proved otherwise.

**C89 — backward_periods yields exactly the multiples of the period from the start down** (partial; `Props/Seq.lean`).
Modelled: src/seq/mod.rs: backward_periods.
Method: from C56 and C10.
Theorems: `C89_backward_periods_partial`, `C89_greatest_violated`, `C89_violated`, `C89_after_violated`.
Scope: Violated from every start: the greatest multiple which is not after the start is never yielded (the sequence starts two periods too early); soundness proved. The starts at or before the origin which are just after a multiple, where ceil is wrong, are decided as well (C89_after_violated).

**C90 — set_deadline and set_startline return whatever windows were used before** (partial; `Props/SchedConvex.lean`).
Modelled: src/graph/scheduler.rs: set_deadline, set_startline, retain, remove.
Method: invariant of C76 for arbitrary windows; witness of the panic.
Theorems: `C90_deadline_partial`, `C90_startline_partial`, `C90_violated`.
Scope: No assignment lost and the bound holds after Ok; errors and panics only when no assignment meets the date. Violated: after three accepted calls with sets set_deadline panics on an unwrap.

**C91 — Displayed windows show their bounds, and format_timeset agrees with Display** (partial; `Props/Format.lean`).
Modelled: src/wins/format.rs: Display for TimeInterval, Display for TimeSet, format_timeset, format_timeslot, format_timepoint.
Method: structural on the set; witness for the empty set and infinities.
Theorems: `C91_sets_partial`, `C91_interval`, `C91_timepoint_partial`, `C91_violated`.
Scope: All non-empty canonical sets of durations and all finite durations. Violated on the empty set ({{}} instead of {}) and on infinite durations (printed in years by format_timepoint).

**C92 — Integers of every type convert to durations exactly or saturate** (partial; `Props/Duration.lean`).
Modelled: src/wins/convert.rs: convert_safely!, TimeConversion.
Method: each conversion compared with the exact one.
Theorems: `C92_ticks`, `C92_units_partial`, `C92_subsec_partial`, `C92_violated`.
Scope: Every integer type; the counts below the smallest representable one are excluded. Violated there: no integer of any type gives -oo in seconds or larger units, (i128::MIN).secs() is 0.

**C93 — Count, iteration and envelope of a convex window describe its dates** (partial; `Props/Interval.lean`).
Modelled: src/wins/mod.rs: TimeWindow for TimeConvex, is_all, convex_envelope; src/ops/range.rs: TimeBounds.
Method: by cases on the kind of window.
Theorems: `C93_structure`, `C93_is_all_partial`, `C93_is_all_violated`.
Scope: All proper windows; is_all on windows with a date. Violated: is_all is true of every empty range.

**C94 — Timestamps and calendar dates convert into each other faithfully** (partial; `Props/DateTime.lean`).
Modelled: src/wins/timestamp.rs: From<Timestamp> for NaiveDateTime, From<NaiveDateTime> for Timestamp, From<DateTime> for Timestamp, to_datetime.
Method: chrono's dates are specified as seconds and nanoseconds since 1970; arithmetic on both conversions.
Theorems: `C94_to_datetime`, `C94_calendar`, `C94_of_datetime_partial`, `C94_roundtrip`, `C94_roundtrip_date`, `C94_violated`.
Scope: Chrono's date arithmetic is specified, not modelled. All timestamps; dates whose nanoseconds since 1970 are within 2^33 s. Violated: all the dates from 1677 to 1697 become timestamps in the future (wrapping multiplication guarded on one side only), dates beyond the i64 nanoseconds panic.

**C95 — now() and elapsed() follow the clock** (partial; `Props/DateTime.lean`).
Modelled: src/wins/timestamp.rs: now, elapsed; src/wins/timevalue.rs: From<std::time::Duration> for TimeValue.
Method: same, with the reading of the clock as a parameter.
Theorems: `C95_now_partial`, `C95_elapsed_partial`, `C95_elapsed_any_partial`, `C95_violated`.
Scope: Clock readings from 1970 to 2038-01-19. Violated after: now() is +oo for every reading and now().elapsed() panics. elapsed() is decided on every timestamp (C95_elapsed_any_partial).

**C96 — Displayed timestamps show their date** (proved; `Props/DateTime.lean`).
Modelled: src/wins/format.rs: Display for Timestamp, format_timestamp, format_timeset; src/wins/timestamp.rs: to_datetime.
Method: structural, the text of a date is a parameter.
Theorems: `C96_display`, `C96_interval`, `C96_sets`.
Scope: All timestamps and non-empty canonical sets; chrono's text of a date is a parameter.

**C97 — Sets are built with exactly the dates asked for** (partial; `Props/Exact.lean`, `Props/SetRel.lean`).
Modelled: src/wins/timeset.rs: all, convex, singleton, empty, From<TW: TimeConvex> for TimeSet.
Method: by cases on the bounds.
Theorems: `C97_empty_exact`, `C97_sets_partial`, `C97_violated`.
Scope: All bounds and windows. Violated: the singletons of both infinities hold an empty interval: is_empty() is false although they have no date. Emptiness is decided for all legal bounds (C97_empty_exact).

**C98 — Floating-point scaling rounds once, exactly where it can, and keeps the order** (partial; `Props/Float.lean`).
Modelled: src/ops/scaling.rs: timevalscalingfloat!.
Method: exact model of IEEE 754 doubles (integers, exponents, round half to even); error bounds and monotonicity of rounding.
Theorems: `C98_ieee`, `C98_exact`, `C98_error`, `C98_monotone`, `C98_monotone_factor`, `C98_div_error`, `C98_div_monotone`, `C98_infinite_partial`, `C98_violated`, `C98_odd_violated`.
Scope: Floats are modelled exactly (IEEE 754, round half to even). All durations and floats. Violated: every positive factor below 1 makes +oo finite, t * NaN is 0, no product beyond 2^53 ticks is an odd number of ticks, so t * 1.0 differs from t for every odd t there, 49 / 49.0 is 0.

**C99 — Intervals and sets scaled by a float hold the scaled durations and stay canonical** (partial; `Props/FloatSet.lean`).
Modelled: src/ops/scaling.rs: timespanscalingfloat!, timespansscalefloat!, check_joined_inners.
Method: monotonicity of C98 lifted to bounds and lists.
Theorems: `C99_interval`, `C99_interval_div`, `C99_interval_div_panic_partial`, `C99_sets_points`, `C99_sets_panic`, `C99_sets_canonical_partial`, `C99_violated`, `C99_nan_violated`, `C99_zero_violated`.
Scope: Points and panics: all intervals, sets and floats. Canonical form: *= with |f| < 1 and * with |f| > 1. Violated elsewhere: s * 0.5 leaves touching intervals (the test of * is the wrong way round) and so differs from s *= 0.5; *= 1.0 leaves overlapping intervals beyond 2^53 ticks. Every set of several intervals times NaN is not canonical; every interval around 0 divided by -0.0 panics.

**C100 — The debug text of a graph or constraint determines it** (proved; `Props/GraphFormat.lean`).
Modelled: src/graph/storage.rs: Debug for TimeGraph; src/graph/constraints.rs: Debug for TimeGraphConstraint.
Method: injectivity of the texts of numbers and lists.
Theorems: `C100_debug`, `C100_debug_determines`, `C100_constraint`, `C100_constraint_determines`.
Scope: All graphs and all constraints.

**C101 — The displayed text of a graph lists its constraints** (proved; `Props/GraphFormat.lean`).
Modelled: src/graph/storage.rs: Display for TimeGraph; src/graph/constraints.rs: Display for TimeGraphConstraint.
Method: the listed constraints determine the matrix.
Theorems: `C101_display`, `C101_display_determines`.
Scope: All graphs with a solution whose finite bounds are at most INF-1 ticks.

**C102 — The texts of a scheduler show the schedule of each instant** (partial; `Props/GraphFormat.lean`, `Props/LooseFormat.lean`).
Modelled: src/graph/scheduler.rs: Debug, Display and TimeSetFormat for TimeScheduler.
Method: structural, from C82 and C91.
Theorems: `C102_debug`, `C102_debug_determines`, `C102_display`, `C102_format_partial`, `C102_violated`, `C102_reached_debug`, `C102_reached_determines`, `C102_reached_display`, `C102_reached_format_partial`.
Scope: All canonical schedulers with at least one instant. Violated by format_timeset: a scheduler without instant gives a sentence instead of the empty text, and an empty schedule is written {{}} instead of {}. The violation is general: every scheduler without instants, every instant with an empty slot. The reached_ theorems hold after any history of requests, whose schedules may show intervals without a date such as [10,9].

**C103 — Collecting constraints into a graph keeps exactly their solutions** (partial; `Props/GraphCollect.lean`).
Modelled: src/graph/constraints.rs: FromIterator<TimeGraphConstraint> for TimeGraph, Extend<TimeGraphConstraint> for TimeGraph.
Method: C65 on the empty graph; an iterator announcing a single constraint by C64.
Theorems: `C103_extend`, `C103_collect_partial`, `C103_self_violated`.
Scope: Bounds at most W with 3·n·W < 2^63-1. Violated: collecting a single constraint from an instant to itself whose time span is not empty but does not hold 0 returns a graph.

**C104 — Window iterators keep their contract when chained** (partial; `Props/Chain.lean`, `Props/ChainSpan.lean`, `Props/FloatSet.lean`).
Modelled: src/iter/mod.rs: TimeConvexIterator; src/iter/scaling.rs: TimeValueScaleIter; src/iter/transl.rs: TimeValueTranslIter; src/iter/compl.rs: IterComplementary.
Method: induction on the chain; general theorems for the violations.
Theorems: `C104_step_by`, `C104_contract_partial`, `C104_dates_partial`, `C104_rewrite_partial`, `C104_touch_violated`, `C104_scaling_violated`, `C104_translate_span`, `C104_float_violated`.
Scope: Any depth; the intersections do not touch, translations and scalings do not overflow, factors are positive (dates: each union ends with its second operand, see C30). Violated: touching operands of an intersection (the double complement of an empty intersection has dates), every negative factor on every set with several intervals, floats.

**C105 — Sets obey the laws of set algebra** (partial; `Props/SetLaws.lean`, `Props/SetLawsExact.lean`).
Modelled: src/ops/union.rs: BitOr for TimeSet; src/ops/intersect.rs: BitAnd for TimeSet; src/ops/compl.rs: Not for TimeSet.
Method: sorted sets with gaps and the same members are equal; members of an intersection known exactly; canonical form unique for the rest; a lossy union loses a date of its left operand, which decides commutativity, absorption and De Morgan; complement of a set holding an empty interval has touching intervals.
Theorems: `C105_inter_comm`, `C105_inter_assoc`, `C105_inter_units`, `C105_excluded_middle`, `C105_contradiction_violated`, `C105_union_units`, `C105_union_comm_partial`, `C105_union_comm_violated`, `C105_union_assoc_partial`, `C105_absorb_union_partial`, `C105_de_morgan_union_partial`, `C105_de_morgan_inter_partial`, `C105_distrib_partial`, `C105_absorb`, `C105_union_comm_exact`, `C105_absorb_union_exact`, `C105_de_morgan_union_exact`, `C105_de_morgan_inter_exact`.
Scope: Proved outright: the laws of & alone, the units of |, the excluded middle, (a & b) | a == a. Decided exactly: a | b == b | a iff neither order loses a date (C30), a & (a | b) == a iff the union loses none, and De Morgan's laws hold iff the union loses no date and the sets do not touch (C33). Partial: associativity of | and distributivity, when the unions lose no date and the sets do not touch. Violated: a & !a is never empty (unless a is empty or has every date); a | b and b | a differ as soon as a has an interval, other than its last, beyond b.

**C106 — Large graphs behave the same in release builds** (partial; `Props/Release.lean`).
Modelled: src/graph/storage.rs: with_size, resize, lower, lower_mut, timespan.
Method: wrapping versions of the primitives; agreement by inversion of the checked ones; induction over the diagonal writes for the failures.
Theorems: `C106_same`, `C106_small_partial`, `C106_limit_violated`.
Scope: Up to 65535 instants, and whenever the debug build answers. Violated from 65536 on: enlarging a graph writes out of its memory (certain when n^2 mod 2^32 <= 4294901760, in particular for 65536 and 65537), or the bound between instants 256 and 0 is overwritten by the one of instant 65536.

**C107 — Rounding gives the same answer in release and debug builds** (partial; `Props/Release.lean`).
Modelled: src/wins/timevalue.rs: floor, ceil.
Method: wrapping versions; agreement by inversion, arithmetic for the failures.
Theorems: `C107_same`, `C107_floor_violated`, `C107_ceil_violated`, `C107_floor_partial`, `C107_ceil_partial`.
Scope: Whenever the debug build answers (for floor: the multiple is representable). Violated for every date and period such that the multiple is not an i64: floor answers a date after the argument, ceil a date before. ceil is decided as well when the right multiple is representable (C107_ceil_partial).

**C108 — shrink_to(n) changes nothing the user can read** (partial; `Props/Release.lean`).
Modelled: src/graph/storage.rs: shrink_to.
Method: arithmetic.
Theorems: `C108_shrink_to_partial`, `C108_shrink_to_violated`.
Scope: For n <= 65535. Violated: for every n >= 65536 a debug build panics on the overflow of n*n.

**C109 — A translation of an interval which overflows keeps the representable dates** (partial; `Props/Overflow.lean`).
Modelled: src/ops/transl.rs: Add, Sub, AddAssign, SubAssign for TimeInterval.
Method: saturation of the two bounds, by arithmetic; general theorems for the violations.
Theorems: `C109_add_span`, `C109_sub_span`, `C109_translate`, `C109_assign_violated`, `C109_round_trip_violated`.
Scope: All operands for + and -. Violated: += and -= give the one-point intervals +oo and -oo (the latter is not reported as empty); when one end only overflows the bound is lost, (i + d) - d is unbounded.

**C110 — A translation of a set which overflows keeps the representable dates and the canonical form** (partial; `Props/Overflow.lean`).
Modelled: src/ops/transl.rs: Add and Sub for TimeSet; src/iter/transl.rs: TimeValueTranslIter.
Method: induction on the set; the fold of unions skips the empty intervals; general theorems for the violations.
Theorems: `C110_translate_partial`, `C110_translate_others`, `C110_iter_partial`, `C110_iter_violated`, `C110_empty_violated`, `C110_add_span`, `C110_sub_span`, `C110_add_spans_violated`.
Scope: S + span and s - span: all operands. s + d: the dates are right, the form is canonical iff no interval overflows as a whole. s - d, spans + t, spans - t and t - spans are s + d of another set or duration, panics included. The iterator: towards the future, and towards the past when the first interval keeps some date. Violated: an overflowing interval is kept as an empty one by s + d and s + spans; a set without dates is not reported as empty; towards the past the iterator stops at the first overflow and loses all the other intervals.

**C111 — Signs survive saturation** (proved; `Props/Sign.lean`).
Modelled: src/wins/timevalue.rs: is_zero, is_positive, is_negative, is_strictly_positive, is_strictly_negative, Add, Sub; src/wins/timestamp.rs: Sub; src/ops/scaling.rs: Mul for TimeValue.
Method: case analysis on the infinities and on saturation.
Theorems: `C111_predicates`, `C111_sum`, `C111_difference`, `C111_product`.
Scope: All legal operands; products by the integer types of at most 64 bits.

**C112 — Comparisons and hashes of windows obey the contracts of Eq, Hash and PartialOrd** (partial; `Props/Compare.lean`).
Modelled: src/relns/ordering.rs: PartialEq and PartialOrd for TimeInterval and TimeSet; src/wins/timeinterval.rs: derive(Hash); src/wins/timeset.rs: derive(Hash).
Method: equality is equality of the iterated intervals; order from the bounds; exact behaviour of the empty values.
Theorems: `C112_equivalence`, `C112_hash`, `C112_hash_points`, `C112_order_partial`, `C112_order_violated`.
Scope: Equality and hashes: full. Order: full for non-empty values; an empty value is both < and > every bounded value, and == , < and > itself (C112_order_violated decides all the cases).

**C113 — Serialized values read back equal, and reading never builds an invalid value** (partial; `Props/Serde.lean`).
Modelled: src/wins/timevalue.rs: derive(Serialize, Deserialize); src/wins/timestamp.rs: derive(Serialize, Deserialize); src/wins/timeinterval.rs: derive(Serialize, Deserialize); src/wins/timeset.rs: derive(Serialize, Deserialize).
Method: model of the derived code on serde's data model; induction on the intervals.
Theorems: `C113_round_trip_partial`, `C113_injective`, `C113_unchecked_violated`, `C113_reversed_violated`, `C113_fields`, `C113_interval_exact`, `C113_set_exact`.
Scope: Everything the crate writes reads back. What is read is decided exactly: which documents are accepted and as what (C113_interval_exact, C113_set_exact). Reading checks nothing: any pair of i64 is accepted as an interval, any list of them as a set (C113_unchecked_violated). The model stops at serde's data model; formats such as JSON are not modelled.

**C114 — A graph means exactly what its whole history says** (proved; `Props/GraphHistory.lean`).
Modelled: src/graph/storage.rs: with_size, resize, reset, shrink_to_fit; src/graph/propagation.rs: propagate, extend, merge.
Method: invariant by induction over the histories, each call by the theorems on arbitrary bounds.
Theorems: `C114_solutions`, `C114_next`.
Scope: All bounds. Constraints between an instant and itself are excluded (C62_self_violated), as is resize to a smaller size (C74) and size hints 0 and 1 (C64); shrink_to_fit while a solution exists.

**C115 — A schedule means exactly what its whole history says** (proved; `Props/SchedHistory.lean`).
Modelled: src/graph/scheduler.rs: new, scheduling, retain, remove, set_deadline, set_startline, propagate_scheduling; src/ops/transl.rs: Add for TimeSet.
Method: invariant by induction over the requests, on sets which may hold junk; saturation loses no finite date.
Theorems: `C115_solutions`, `C115_next`, `C115_end_to_end`.
Scope: All bounds. Excluded: set_deadline(-oo) and set_startline(+oo) (C79_violated). C115_end_to_end composes it with C114.

**C116 — skip and step_by on a sequence yield the elements they name** (partial; `Props/SeqAdapt.lean`).
Modelled: src/seq/forward.rs: next, nth, len; src/seq/backward.rs: next, nth, len.
Method: model of the standard adaptors Skip and StepBy over next and nth; closed forms by induction on the calls.
Theorems: `C116_skip_partial`, `C116_skip_violated`, `C116_step_by_violated`, `C116_step_by_one_violated`, `C116_backward_skip_partial`, `C116_backward_skip_violated`, `C116_backward_step_by_violated`, `C116_backward_step_by_one_violated`.
Scope: Violated: nth(n) skips n - 1 elements (nth(0) repeats the date already given), so skip(n) skips n - 1 elements and step_by(k) advances by k - 1 periods, step_by(1) standing still; proved in general, with what they yield instead. Proved: skip(0), and skip beyond the end.

**C117 — Pipelines of window iterators are lazy, and every iteration ends** (proved; `Props/Lazy.lean`).
Modelled: src/iter/union.rs: IterUnion::next; src/iter/intersect.rs: IterIntersection::next; src/iter/compl.rs: IterComplementary::next; src/iter/transl.rs: TimeValueTranslIter::next; src/iter/scaling.rs: TimeValueScaleIter::next; src/iter/mod.rs: TimeConvexIterator.
Method: small-step model of the pipelines (one turn of the loops of next); simulation of the eager evaluation by induction on the pipeline; termination by a measure on the states.
Theorems: `C117_lazy`, `C117_panic`, `C117_terminates`, `C117_take`, `C117_translation`, `C117_used`.
Scope: All pipelines and states; predicates of filter, skip_while and take_while are functions without state.

**C118 — Release and debug builds of a graph do the same** (partial; `Props/ReleaseGraph.lean`).
Modelled: src/graph/storage.rs: lower, lower_mut, resize, shrink_to_fit; src/graph/propagation.rs: propagate, extend, merge, global_propagation; src/graph/constraints.rs: TimeConstraintIter, TimeConstraintFromIter.
Method: model of the release build function by function; agreement relation closed under bind, if and folds, then C59 (no overflow) for histories.
Theorems: `C118_operation`, `C118_history`, `C118_queries`, `C118_collect`, `C118_last_instant_violated`.
Scope: All graphs and histories. Violated beyond 65535 instants: a constraint on the instant 2^32 - 1 panics in a debug build and writes out of memory in a release build, on every graph (last_instant); see also C106.

**C119 — Debug assertions only detect empty results, they never change one** (proved; `Props/ReleaseSched.lean`).
Modelled: src/ops/transl.rs: Add and Sub; src/iter/transl.rs: TimeValueTranslIter::next; src/graph/scheduler.rs: retain, remove, set_deadline, set_startline, propagate_scheduling.
Method: model of the release build of the scheduler; relation `Silent` closed under bind, if, mapM and folds; induction on chains, pipelines and histories; C118 for the graph.
Theorems: `C119_intervals`, `C119_sets`, `C119_interval_stops`, `C119_set_stops`, `C119_chains`, `C119_next`, `C119_pipes`, `C119_request`, `C119_requests`, `C119_program`.
Scope: All translations, chains, pipelines in any state, schedules over allocated graphs, and programs of graph operations followed by requests.

**C120 — Moving the origin of time changes nothing but the dates** (proved; `Props/Shift.lean`).
Modelled: src/ops/union.rs; src/ops/intersect.rs; src/ops/compl.rs; src/wins/timeset.rs: truncate_before, truncate_after; src/relns/contain.rs; src/relns/overlap.rs; src/ops/transl.rs; src/graph/scheduler.rs.
Method: equivariance lemma for every function on dates (iterators, collection, truncations, relations, propagation), with the bound of the results; relation `Moves` closed under bind and folds; induction on the requests.
Theorems: `C120_moved`, `C120_operations`, `C120_laws`, `C120_relations`, `C120_request`, `C120_requests`, `C120_built`.
Scope: All sets, canonical or not, all windows and requests within the bounds given; (a & b) + d is decided exactly.

**C121 — Names of instants, direction of constraints and direction of time do not matter** (proved; `Props/Rename.lean`).
Modelled: src/graph/mod.rs; src/graph/storage.rs: lower, lower_mut; src/graph/propagation.rs: propagate, extend; src/graph/constraints.rs: TimeConstraint.
Method: a change of names or direction maps the solutions of the constraints onto each other; propagation is exact (C01, C03), so the answers and the closed graphs correspond; induction on the history.
Theorems: `C121_rename`, `C121_mirror`, `C121_direction`, `C121_batch`.
Scope: All permutations, histories with refused constraints, and batches, within the bounds which rule out saturation.

**C122 — Windows seen in a mirror: the operations do not depend on the direction of time** (partial; `Props/Mirror.lean`).
Modelled: src/wins/timeset.rs: Neg; src/wins/timeinterval.rs: Neg; src/ops/union.rs; src/ops/intersect.rs; src/ops/compl.rs; src/ops/transl.rs; src/wins/timeset.rs: truncate_before, truncate_after; src/relns/contain.rs; src/relns/overlap.rs.
Method: extensionality of canonical sets applied to the exact specifications (C30, C33, C35-C37) of both sides; what a union loses comes after the end of its second argument, so both sides cannot lose the same dates.
Theorems: `C122_operations`, `C122_relations`, `C122_union_partial`, `C122_union_violated`, `C122_intervals`, `C122_translations`, `C122_set_translations`.
Scope: Proved outright for everything but the union of sets. For the union the law is decided exactly (it holds iff neither union loses a date, C30) and is violated as soon as a has an interval, other than its last, beyond the end of b.

**C123 — Schedules seen in a mirror: the direction of time does not matter to a scheduler** (partial; `Props/MirrorSched.lean`).
Modelled: src/graph/scheduler.rs: retain, remove, set_deadline, set_startline, latest_beginning, earliest_ending, propagate_scheduling; src/wins/timeset.rs: truncate_before, truncate_after; src/graph/constraints.rs: TimeConstraintFromIter.
Method: every step of a request (window tests, truncations, translation, intersection, the list of constraints, the loops) commutes with the mirror on all lists the requests can leave, empty intervals included; induction on the requests; graphs by C121.
Theorems: `C123_request`, `C123_requests_partial`, `C123_convex`, `C123_queries`, `C123_program`, `C123_sets_violated`.
Scope: Proved for all requests on canonical slots, and for all sequences of requests without sets; with sets, for all sequences in which each request about a set finds canonical slots. Violated otherwise: on slots left by touching intervals (C33) the same request is accepted in one direction of time and refused in the other.

**C124 — Units and origins of time do not matter to a graph** (proved; `Props/Units.lean`).
Modelled: src/graph/propagation.rs: propagate, extend; src/graph/mod.rs: timespan; src/time/timevalue.rs.
Method: a solution in the new units gives solutions in the old ones by rounding, with every offset; the changed matrix is closed and has exactly the solutions of the changed constraints, so it is the graph (Closed.unique).
Theorems: `C124_history`, `C124_batch`.
Scope: Histories with refused constraints, and batches; factors and origins at once, within the bounds which rule out saturation in both units.

**C125 — Neither the order nor the repetition of requests to a scheduler matters** (partial; `Props/SchedRepeat.lean`).
Modelled: src/graph/scheduler.rs: retain, set_deadline, set_startline, propagate_scheduling; src/relns/contain.rs: contains; src/ops/intersect.rs.
Method: a schedule of intervals consistent with a minimal graph is determined by its feasible assignments (each slot date extends to one), and these by the accepted requests (C78); sets: the exact intersection (C33) and its empty intervals.
Theorems: `C125_meaning_partial`, `C125_order_partial`, `C125_repeat_partial`, `C125_set_violated`, `C125_order_violated`.
Scope: Proved for dates, intervals and ranges which are not empty (those violate C78), deadlines and startlines. Violated by sets: making the same request again is decided exactly (it is answered Propagated again iff a former interval of the instant begins just after the end of an interval of the set, except for instant 0), and there are three requests, all accepted, whose order changes the dates left for another instant.

**C126 — Choosing dates one by one never needs backtracking** (partial; `Props/SchedGreedy.lean`).
Modelled: src/graph/scheduler.rs: retain, scheduling, propagate_scheduling; src/graph/constraints.rs: TimeConstraintFromIter.
Method: a date in a slot of a consistent schedule extends to a feasible assignment (ConvSched.attain), so the choice is accepted and keeps the schedule consistent; induction on the choices. Sets: a counterexample.
Theorems: `C126_greedy_partial`, `C126_set_violated`.
Scope: Proved for histories of dates, intervals and ranges which are not empty, deadlines and startlines. Violated after requests with sets: a date left for an instant may belong to no solution, and choosing it is accepted but leaves another instant without a date.

**C127 — An answer is final: once refused, always refused; once accepted, always implied** (partial; `Props/SchedFirm.lean`).
Modelled: src/graph/scheduler.rs: retain, remove, set_deadline, set_startline, propagate_scheduling; src/graph/propagation.rs: propagate; src/relns/contain.rs; src/relns/overlap.rs; src/ops/intersect.rs.
Method: each interval left by a request (empty ones included) lies inside one that was there, through cuts, intersections and propagation, so overlap, containment by bounds and the tests of deadlines are monotone; graphs: solutions only decrease, and the answer is decided by them (propagate_tight).
Theorems: `C127_refused`, `C127_kept_partial`, `C127_set_violated`, `C127_graph`.
Scope: Refusals: proved for all requests, as are both claims for graphs. Acceptance: proved for dates, intervals, ranges, deadlines and startlines, and for sets when the intervals left for the instant are canonical. Violated for sets otherwise: an accepted set is answered Propagated after a request which touches the slots (C33).

**C128 — Independent parts of a plan do not interfere** (partial; `Props/Apart.lean`, `Props/LinesReached.lean`).
Modelled: src/graph/propagation.rs: propagate; src/graph/constraints.rs: TimeConstraintFromIter; src/graph/scheduler.rs: retain, remove, propagate_scheduling; src/ops/transl.rs.
Method: answers and delays depend only on the solutions (propagate_tight, Closed.unique), and solutions of the two parts can be glued after a translation; schedulers: a time span without bounds turns the slots into everything, whose intersection with loose slots changes nothing, so the propagations touch their own part only.
Theorems: `C128_graph`, `C128_sched_partial`, `C128_empty_violated`, `C128_reached_violated`.
Scope: Proved for graphs; for schedulers and all requests but empty intervals and ranges (accepted by mistake, C75). Violated by those: since constraints_from starts with instant 0 even if nothing is known about it (C72), an empty window requested for any instant erases the dates of instant 0. C128_reached_violated is the same after any history of requests.

**C129 — The way a graph has been built does not matter** (partial; `Props/Steady.lean`).
Modelled: src/graph/propagation.rs: TimeGraph::propagate, TimeGraph::extend, TimeGraph::merge; src/graph/storage.rs: TimeGraph::resize, TimeGraph::reset, TimeGraph::shrink_to_fit, TimeGraph::timespan; src/graph/scheduler.rs: TimeScheduler::new, TimeScheduler::retain.
Method: induction on the history: the matrix stays closed and within the span of the accepted constraints, and a closed matrix is determined by its solutions (Closed.unique), as are the answers; schedulers read the graph through its time spans only (same_from), so their runs are equal step by step.
Theorems: `C129_graph_partial`, `C129_next_partial`, `C129_sched`, `C129_requests_partial`, `C129_growth_violated`.
Scope: Proved for histories whose single constraints are between two instants of the graph or between two new ones. Violated when a single constraint links an old instant to a new one (C64): making room for the new instant first gives the same solutions and other time spans. Merges: the same rejections; whether an accepted merge answers unchanged or propagated is not compared.

**C130 — The earliest and the latest plans exist** (partial; `Props/SchedBest.lean`).
Modelled: src/graph/scheduler.rs: earliest_ending, latest_beginning, set_deadline, set_startline, retain; src/graph/storage.rs: timespan.
Method: minimum and maximum of two plans are plans (common_deadline, common_startline), each slot date extends to a plan (ConvSched.attain), so the extreme dates fit together; graphs: the triangle inequality of the closed matrix. Sets: bounds from the history invariant (planned_inv) and a counterexample.
Theorems: `C130_bounds`, `C130_ending_partial`, `C130_beginning_partial`, `C130_extremes_partial`, `C130_graph`, `C130_set_violated`.
Scope: For windows of all types no plan is better than earliest_ending and latest_beginning (C130_bounds). That they are attained is proved for dates, intervals and ranges which are not empty, deadlines and startlines, and violated by sets: there are three requests, all accepted, after which earliest_ending is 10 and all the plans end at 14 or after.

**C131 — A scheduler is a graph with an origin of dates** (partial; `Props/Twin.lean`).
Modelled: src/graph/scheduler.rs: TimeScheduler::retain, propagate_scheduling; src/graph/propagation.rs: TimeGraph::propagate, propagate_lower_bound; src/graph/storage.rs: TimeGraph::resize, TimeGraph::timespan.
Method: a simulation: the solutions of the extended graph, seen from the origin, are the feasible assignments of the schedule; both answers are decided by them (sinv_propagate, retain_plan), and slots and time spans are the sets of values they take (ConvSched.attain, Closed.attain).
Theorems: `C131_origin_partial`, `C131_empty_violated`.
Scope: Proved for windows which are not empty. Violated by every empty interval or range on an instant without request: the graph refuses it, the scheduler accepts it (C75).

**C132 — Adding constraints never gives anything back** (partial; `Props/Monotone.lean`).
Modelled: src/graph/propagation.rs: TimeGraph::propagate, TimeGraph::extend, TimeGraph::merge; src/graph/storage.rs: TimeGraph::timespan; src/graph/scheduler.rs: TimeScheduler::retain, set_deadline, set_startline.
Method: time spans and slots are exactly the values taken by the solutions (SInv.delays, ConvSched.attain), and answers are decided by the solutions.
Theorems: `C132_graph_partial`, `C132_answers_partial`, `C132_sched_partial`, `C132_set_violated`.
Scope: Graphs: histories whose single constraints are between two instants of the graph or between two new ones (C64 otherwise). Schedulers: dates, intervals and ranges which are not empty, deadlines and startlines. Violated by sets: the same requests, all accepted, in another order leave another date.

**C133 — What a graph announces can be asked for** (partial; `Props/GraphGreedy.lean`).
Modelled: src/graph/mod.rs: TimeGraph; src/graph/propagation.rs: propagate.
Method: time spans are exactly the delays of the solutions (SInv.delays), and an interval is determined by its delays; induction over the list of choices.
Theorems: `C133_span_partial`, `C133_choose_partial`, `C133_deduction_violated`, `C133_growth_violated`.
Scope: Histories whose single constraints are between two instants of the graph or between two new ones. Violated after a single constraint from an old instant to a new one, in general (C133_deduction_violated): delays which are announced are refused, or accepted with no solution left, as in C133_growth_violated.

**C134 — Replicas which exchange their graphs converge** (partial; `Props/Gossip.lean`).
Modelled: src/graph/propagation.rs: merge, global_propagation.
Method: induction over the exchanges with the invariants of C114 and C129; the graphs of two replicas with the same solutions are then equal by C129.
Theorems: `C134_solutions`, `C134_converge_partial`, `C134_exchange_partial`, `C134_growth_violated`.
Scope: The solutions, with any bounds and histories (C134_solutions). The announced delays: histories whose single constraints are between two instants of the graph or between two new ones, with bounds which rule out saturation. Violated otherwise: a graph which was given a constraint from an old instant to a new one is completed by an exchange with a graph which knows nothing in one direction, and not in the other.

**C135 — Announced delays add up** (partial; `Props/Route.lean`).
Modelled: src/graph/mod.rs: timespan; src/ops/transl.rs: Add<TimeSpan>, Sub<TimeSpan>; src/relns/contain.rs: contains; src/graph/scheduler.rs: scheduling.
Method: induction over the route with the triangle inequality of minimal graphs and the saturating sums of C01; the schedulers by the full solutions of C78 and the sums of C41.
Theorems: `C135_route_partial`, `C135_rest_partial`, `C135_sched_partial`, `C135_date_partial`, `C135_growth_violated`, `C135_set_violated`.
Scope: Graphs: all minimal graphs with any bounds (C135_route_partial, C135_rest_partial). Schedulers: requests without sets (C135_sched_partial, C135_date_partial). Violated after a constraint from an old instant to a new one (C135_growth_violated, general) and after sets (C135_set_violated).

**C136 — An interrupted change of a graph loses nothing and invents nothing** (partial; `Props/Crash.lean`).
Modelled: src/graph/propagation.rs: TimeGraph::propagate, propagate_lower_bound, global_propagation, merge, extend; src/graph/storage.rs: resize, timespan.
Method: the operations written again with the content of the graph after each write, proved equal to the model and to record every write; every write is a sound deduction or a requested bound, by induction over the loops (RSafe), then over histories.
Theorems: `C136_writes`, `C136_propagate`, `C136_extend`, `C136_merge`, `C136_iterator`, `C136_resume`, `C136_history`, `C136_next`, `C136_deduce_violated`, `C136_contradiction_violated`.
Scope: All but the last sentence, with any bounds and histories (C136_propagate, C136_extend, C136_merge, C136_iterator, C136_resume, C136_history, C136_next). The last sentence is violated, in general, when the iterator of extend panics: nothing has been propagated (C136_deduce_violated), and a constraint which contradicts those left may then be accepted (C136_contradiction_violated). crash_results, crash_writes, crash_writes_merge: the step by step model computes what the model of the operations computes, and leaves no write out. C136_writes states it for every operation: same answer, one write at a time, ending with the content returned.

**C137 — An interrupted request to a scheduler loses nothing and invents nothing** (partial; `Props/Crash.lean`).
Modelled: src/graph/scheduler.rs: TimeScheduler::retain, remove, set_deadline, set_startline, propagate_scheduling; src/ops/intersect.rs: BitAndAssign.
Method: the same for the writes of the schedule: each intersection keeps the dates of the solutions, by induction over the constraints, the instants and the history.
Theorems: `C137_writes`, `C137_request`, `C137_history`, `C137_next`, `C137_undone_violated`.
Scope: All but the last sentence (C137_request, C137_history, C137_next). The last sentence is violated: set_deadline may panic after it has removed solutions (C137_undone_violated). crash_results and crash_writes as for C136. C137_writes: the step by step version gives the same answer, one write at a time, ending with the schedule returned.

**C138 — A compound assignment which panics leaves the window as it was** (partial; `Props/CrashSet.lean`).
Modelled: src/ops/transl.rs: AddAssign, SubAssign; src/ops/scaling.rs: MulAssign, DivAssign; src/ops/union.rs: BitOrAssign; src/ops/intersect.rs: BitAndAssign.
Method: the loops over the intervals written again with the content of the set after each write, proved equal to the model; what a panic leaves by induction over the intervals, then order decided with the lemmas of C110.
Theorems: `C138_results`, `C138_replace`, `C138_divide`, `C138_interval`, `C138_interval_others`, `C138_translate`, `C138_translate_violated`, `C138_canonical_exact`, `C138_canonical_violated`, `C138_lookup_violated`, `C138_infinite_violated`, `C138_scale`, `C138_scale_float`, `C138_scale_violated`.
Scope: The second sentence holds (C138_replace, C138_divide). What the others leave is decided: C138_interval, C138_translate, C138_scale, C138_scale_float, and C138_canonical_exact for the order. The first sentence is violated whenever += of a duration other than 0 panics (C138_translate_violated; it panics after the write) and by infinite durations (C138_infinite_violated); the set left may be out of order (C138_canonical_violated, C138_scale_violated, in general), and then answers contains wrongly (C138_lookup_violated). crash_set_results: the step by step model computes what the model of the operations computes. C138_results: the step by step version gives the same answer.

**C139 — A set never has more pieces than its calculation explains** (proved; `Props/Size.lean`).
Modelled: src/iter/union.rs: UnionIter; src/iter/intersect.rs: IntersectionIter; src/wins/timeset.rs: FromIterator; src/ops/compl.rs; src/ops/transl.rs; src/ops/scaling.rs.
Method: number of intervals of each result, by induction on the recursion budget of `from_iter` and on the lists; calculations as a syntax tree (`Spec.Size`); minimality by removing, with the first interval, those of the other list which it meets
Theorems: `C139_sets`, `C139_arith`, `C139_others`, `C139_calculation`, `C139_turns`, `C139_shortest`.
Scope: All sentences proved; the bounds hold for any lists, in order or not; the lower bound is proved for canonical sets.

**C140 — Requests cost what they announce** (proved; `Props/Cost.lean`).
Modelled: src/graph/propagation.rs: propagate, extend, merge, propagate_lower_bound, global_propagation; src/graph/scheduler.rs: retain, remove, set_deadline, set_startline.
Method: counting the contents recorded by the stepwise model (`Model.Crash`) through a predicate for "at most n writes", compositional over bind and folds
Theorems: `C140_propagate`, `C140_quiet`, `C140_extend`, `C140_merge`, `C140_quiet_requests`, `C140_requests`.
Scope: All sentences proved; the writes are those of the stepwise model, shown complete by crash_writes; a change of the size of a graph, and the comparison loop of merge, count for one write.

**C141 — Calculations with durations, spans and sets compose** (proved; `Props/Compose.lean`).
Modelled: src/ops/transl.rs: Add and Sub for TimeSet and TimeInterval; src/ops/scaling.rs: Mul and Div for TimeSpan and TimeSpans; src/wins/timevalue.rs: Add.
Method: canonical sets with the same points are equal (C34); the points of each side by C41, C43 and C45; the bounds of a sum are sums of bounds.
Theorems: `C141_durations`, `C141_spans`, `C141_undo`, `C141_monotone`, `C141_scale`, `C141_divide`, `C141_back`, `C141_distribute`.
Scope: Full, within range; beyond it C01, C109 and C110 tell what happens. (s + A) * n == s * n + A * n is not claimed for sets: it is false when two intervals touch after the translation.

**C142 — Rounding composes** (partial; `Props/Rounding.lean`).
Modelled: src/wins/timevalue.rs: TimeValue::floor, TimeValue::ceil; src/wins/timestamp.rs: Timestamp::floor, Timestamp::ceil; src/wins/convert.rs: IntoTimeValue for TimeValue.
Method: both roundings are decided for every value by uniqueness of the quotient; the laws follow from the gap between two multiples.
Theorems: `C142_floor_exact`, `C142_ceil_exact`, `C142_monotone`, `C142_floor_shift`, `C142_ceil_shift_partial`, `C142_floor_nested`, `C142_ceil_nested`, `C142_unit_violated`, `C142_units_nested`, `C142_mirror_exact`, `C142_mirror_violated`, `C142_infinite_violated`, `C142_legal_violated`.
Scope: What floor and ceil answer is decided for every value (C142_floor_exact, C142_ceil_exact). Order: all values. Shifts and nested roundings: floor and units outright, ceil for positive values or periods of two ticks at least (shifts: positive values). Violated: ceil to one tick goes down for ever from any non-positive value; the mirror law is decided exactly (C142_mirror_exact) and fails for every period; floor makes +oo finite and ceil makes -oo finite for almost every period; floor to a power of two (a second, say) of the first dates is i64::MIN, which is not a valid value.

**C143 — The length of a slot behaves like a length** (proved; `Props/Length.lean`).
Modelled: src/wins/timeinterval.rs: TimeSlot::duration, enlarge, truncate_before, truncate_after; src/ops/transl.rs; src/wins/timestamp.rs: Add, Sub.
Method: the length is characterised by the distances of points, the laws follow from the points of the results (C22, C24, C26).
Theorems: `C143_longest`, `C143_inside`, `C143_translate`, `C143_span`, `C143_cut`, `C143_enlarge`, `C143_end`.

**C144 — Merging a graph is adding its constraints** (proved; `Props/Transfer.lean`).
Modelled: src/graph/mod.rs: TimeGraph::merge, extend; src/graph/propagation.rs; src/graph/constraints.rs: iter.
Method: the three ways give minimal graphs with the same solutions (C63, C65, C67), and minimal graphs are determined by their solutions.
Theorems: `C144_merge_is_extend`, `C144_one_by_one`.

**C145 — A slot repeated with a period** (partial; `Props/Recur.lean`).
Modelled: src/seq/mod.rs: Timestamp::forward_sequence, backward_sequence; src/seq/forward.rs: next; src/seq/backward.rs: next; src/ops/transl.rs: Timestamp + TimeSpan; src/wins/timeset.rs: FromIterator.
Method: the items are computed by induction, the collection is C38; the number of intervals comes from the uniqueness of canonical sets.
Theorems: `C145_forward`, `C145_backward_violated`, `C145_backward_partial`.
Scope: Proved for forward sequences (C145_forward), and for backward ones when the slots leave no gap (C145_backward_partial). Violated by every backward sequence whose period leaves a gap: only the slots of the last two dates are collected (C145_backward_violated), whatever their number.

**C146 — Once over, an iterator stays over** (partial; `Props/Rest.lean`).
Modelled: src/iter/union.rs: IterUnion; src/iter/intersect.rs: IterIntersection; src/iter/compl.rs: IterComplementary; src/iter/transl.rs; src/seq/forward.rs: TimeSeqForward; src/seq/backward.rs: TimeSeqBackward; src/graph/constraints.rs: TimeConstraintIter, TimeConstraintFromIter.
Method: a syntactic predicate on the states of the pipelines (`AtRest`) is preserved by `next`, which then returns None; by cases on the turn which returns None, and an invariant on the answers kept by a union, it holds after the first None.
Theorems: `C146_over_partial`, `C146_translation_violated`, `C146_sequences`, `C146_constraints`.
Scope: Violated by a translation in a release build: an interval which overflows as a whole makes next() return None, and the next call goes on with the following interval (C146_translation_violated, for all such intervals). Proved for every pipeline of a debug build, and in a release build for those whose translations are inside a union, an intersection, an exclusion or a complement, which stop at the first None; for all sequences and all iterators of graphs.

**C147 — A pipeline works in proportion to what it reads** (proved; `Props/Turns.lean`).
Modelled: src/iter/union.rs: IterUnion::next; src/iter/intersect.rs: IterIntersection::next; src/iter/compl.rs: IterComplementary::next; src/iter/excl.rs; src/iter/transl.rs; src/iter/scaling.rs.
Method: two measures on the states of the pipelines, the items to come and the turns to come, decrease at each turn; the bounds of their first values are by induction on the pipeline.
Theorems: `C147_turns`, `C147_once`, `C147_items`.

**C148 — Every answer can be explained** (proved; `Props/Explain.lean`, `Props/ExplainSched.lean`).
Modelled: src/graph/mod.rs: TimeGraph::propagate, extend, timespan; src/graph/propagation.rs; src/graph/scheduler.rs: TimeScheduler::retain, set_deadline, set_startline.
Method: a cut argument: in a solution which reaches a bound, move all the instants which no tight chain (no tight delay) links to the others by one tick; it would be a solution beyond the bound. The rest follows from C63, C103, C78 and C79.
Theorems: `C148_delay`, `C148_history`, `C148_collect`, `C148_earliest`, `C148_latest`, `C148_refused`.

**C149 — A small change has a small effect** (proved; `Props/Shake.lean`, `Props/ShakeSched.lean`).
Modelled: src/graph/mod.rs: TimeGraph::propagate, extend, timespan; src/graph/propagation.rs; src/graph/scheduler.rs: TimeScheduler::retain, set_deadline, set_startline.
Method: without a loop, a chain need not follow a constraint twice, so weakening one constraint by d ticks weakens the strongest chain by at most d; one goes from one list to the other through the list of the hulls, one constraint after the other. For schedulers, the request which explains a date (C148) is moved.
Theorems: `C149_delay`, `C149_history`, `C149_collect`, `C149_margin`, `C149_earliest`, `C149_latest`.

**C150 — Parts of a plan which share one instant** (proved; `Props/Hinge.lean`).
Modelled: src/graph/mod.rs: TimeGraph::propagate, timespan; src/graph/propagation.rs.
Method: by induction on the history, with the invariant that a solution of the part and a solution of the whole, moved to agree on the shared instant, make a solution of the whole.
Theorems: `C150_parts`.

**C151 — Narrowing can be repeated** (partial; `Props/Narrow.lean`).
Modelled: src/ops/intersect.rs: BitAnd, BitAndAssign; src/iter/intersect.rs: IntersectionIter::next; src/wins/timeset.rs: truncate_before, truncate_after, Neg; src/relns/contain.rs: contains; src/ops/transl.rs: Add.
Method: by induction on the expression, with the invariant that the intervals of a value are sorted and apart, though some may hold no date; an intersection is characterised by the common parts of intervals chosen from its sets, which does not depend on order, grouping and repetition; the sentence on translations is refuted for all touching intervals.
Theorems: `C151_dates`, `C151_contains`, `C151_regroup`, `C151_translate_violated`.
Scope: The dates, the containment queries and the order of intersections are proved for every expression. The sentence on translations is violated: the intersection of any two intervals which touch has no date, yet translated by a time span of more than one duration it has some, and translated by one duration it panics in a debug build (C151_translate_violated).

**C152 — Sets of dates asked for one instant, or for two, are scheduled exactly** (partial; `Props/Pair.lean`).
Modelled: src/graph/scheduler.rs: TimeScheduler::retain, remove, scheduling, propagate_scheduling; src/ops/intersect.rs: BitAndAssign; src/iter/transl.rs.
Method: by induction on the history, from the propagation interval by interval of C77_pieces: as long as no interval without a date is left, each date of the other instants is at an allowed delay from a date of the requested one; the graph is minimal, so this delay belongs to a solution, which is moved. The general statement is refuted by a removal which ends where the slots end.
Theorems: `C152_one_partial`, `C152_one_answer_partial`, `C152_two_partial`, `C152_two_answer_partial`, `C152_violated`.
Scope: Proved in both builds, when the slots of the instant show no interval without a date: for requests about one instant at the end of the history only (C152_one_partial, C152_one_answer_partial), for two instants after each accepted request (C152_two_partial, C152_two_answer_partial). Violated otherwise, for every delay which is not fixed and every removal which ends where the slots end (C152_violated).

**C153 — Parts of a schedule which share one instant** (proved; `Props/HingeSched.lean`).
Modelled: src/graph/scheduler.rs: TimeScheduler::retain, set_deadline, set_startline, scheduling, propagate_scheduling; src/graph/propagation.rs.
Method: the feasible assignments after a history are the solutions which follow the accepted requests (C78); two of them which agree on the shared instant are glued, one on each part, into a third one; slots and answers are read from the feasible assignments.
Theorems: `C153_dates`, `C153_through`, `C153_built`.
Scope: Proved in both builds for histories of retain with non-empty convex windows, set_deadline and set_startline (a deadline or a startline is about both parts); C153_built shows that graphs built by constraints inside the parts meet the hypothesis.

**C154 — Instants at a fixed delay move together** (proved; `Props/Rigid.lean`).
Modelled: src/graph/scheduler.rs: TimeScheduler::retain, remove, set_deadline, set_startline, scheduling, propagate_scheduling; src/iter/transl.rs; src/ops/intersect.rs: BitAndAssign.
Method: by induction on the history, from the propagation interval by interval of C77_pieces: in a minimal graph the delays from any instant to the two differ by d, and an interval without a date is never reached from both ends through a single delay. Convex histories: from C78.
Theorems: `C154_sets`, `C154_exact`, `C154_plan`.
Scope: Proved in both builds. When an instant has lost all its intervals, instant 0 may lose its dates without being constrained with it (the first constraint enumerated, C72_first_violated), so the statement asks for a date left for each instant.

**C155 — A plan made of steps takes the sums of its steps** (proved; `Props/Steps.lean`).
Modelled: src/graph/mod.rs: TimeGraph::with_size, propagate, timespan; src/graph/propagation.rs.
Method: the constraints are satisfied together by placing each instant from its origin with any allowed delay (recursion on the rank), so all are accepted (C63); a sum of allowed delays is realised by choosing these delays on the steps between, and the dates of any solution give such a sum. The chain: induction on its length.
Theorems: `C155_steps`, `C155_chain`.
Scope: Any number of steps from with_size(n), bounds at most W with 3·n·W < 2^63-1; sides of a step without a bound are allowed in C155_steps, C155_chain is about bounded steps.

**C156 — A plan between a startline and a deadline follows its critical paths** (proved; `Props/Critical.lean`).
Modelled: src/graph/mod.rs: TimeGraph::propagate; src/graph/scheduler.rs: TimeScheduler::new, set_startline, set_deadline, scheduling, earliest_ending, latest_beginning, propagate_scheduling.
Method: the slots are intervals whose ends are explained by one accepted request and one announced delay (C148), itself the total of a chain; conversely a date left extends to a solution (C78), which respects every chain. Precedences are satisfied by rank times the longest delay.
Theorems: `C156_window`, `C156_ends`, `C156_built`, `C156_precedences`.
Scope: C156_built and C156_precedences show that the hypotheses of C156_window are met by graphs built from constraints (Within (n·W)); both builds.

**C157 — The intersection of two intervals without a common date behaves like an empty window** (partial; `Props/Conflict.lean`, `Props/Disjoint.lean`).
Modelled: src/ops/intersect.rs: TimeInterval BitAnd; src/ops/union.rs: TimeInterval BitOr; src/ops/compl.rs: TimeInterval Not; src/ops/transl.rs: Add<TimeValue>, Add<TimeInterval>; src/relns/contain.rs: TimeContains; src/relns/overlap.rs: TimeOverlapping; src/wins/timeinterval.rs: truncate_before, truncate_after, duration.
Method: Props/Disjoint.lean: the bounds of a & b are dates in the wrong order (disjoint_inter), and each operation is computed from them, for every window; the sentences on contained, overlaps, canonical sets, spans and durations are false and refuted for every pair, the overlap one exactly (the result overlaps the windows which have dates of both intervals).
Theorems: `C157_sets`, `C157_sets_violated`, `C157_dates`, `C157_contains`, `C157_relations_violated`, `C157_canonical_violated`, `C157_translate_violated`.
Scope: Proved for every pair: the dates after &, |, !, truncations and negation, the zero duration and what it contains. Violated for every pair of intervals, one before the other: a & b is said to overlap every window which has dates of both, is said not to be contained in windows which end earlier, ! and | give sets which are not canonical, adding a long enough span makes dates appear, and adding a duration panics in a debug build. For sets: s &= a & b leaves the empty set and s & (a & b) a set without dates, for every canonical set; but the latter is not said to be empty as soon as an interval of s has dates of both (C157_sets_violated).

**C158 — Asking a scheduler for the dates in two intervals at once is refused when there are none** (partial; `Props/Conflict.lean`, `Props/ConflictReached.lean`).
Modelled: src/graph/scheduler.rs: retain, propagate_scheduling; src/ops/intersect.rs: TimeInterval BitAnd, TimeSet BitAndAssign; src/relns/overlap.rs: TimeOverlapping<TimeSet>; src/wins/timeset.rs: truncate_before, truncate_after.
Method: Props/Conflict.lean: the tests of retain are computed for bounds in the wrong order, which cut every slot down to nothing; the loop of the propagation by induction over the constraints. The cases in which the request is refused are characterized exactly, all the others are violations.
Theorems: `C158_refused_partial`, `C158_violated`, `C158_reached_partial`, `C158_reached_violated`.
Scope: Refused, with the schedule untouched, exactly when no slot of the instant has dates of both intervals. Violated for every other schedule (every new scheduler among them): the answer is Ok(Propagated), the instant and all those at a bounded delay have no date left, and every later request on them is answered Ok(Unchanged). The reached_ theorems say the same after any history of requests, whose schedules may show intervals without a date, for an instant which still has a date.

**C159 — Asking a graph for the delays in two intervals at once is refused when there are none** (partial; `Props/ConflictGraph.lean`).
Modelled: src/graph/propagation.rs: propagate, propagate_lower_bound; src/graph/mod.rs: TimeConstraint for ((Instant,Instant), TW); src/ops/intersect.rs: TimeInterval BitAnd.
Method: Props/ConflictGraph.lean: the tests of propagate computed for bounds in the wrong order and read with the solutions of a minimal graph (conflict_between); what is left of the solutions comes from C62. The cases in which the request is refused are characterized exactly, all the others are violations.
Theorems: `C159_refused_partial`, `C159_any_bounds_violated`, `C159_violated`, `C159_growth_violated`.
Scope: Refused, with the graph untouched, exactly when the graph does not allow both delays less than the second interval and others. Violated for every other graph: without overflow the request is accepted, Ok(Propagated), and the graph has no solution left (C159_violated); with any bounds it is never refused, and the same holds once it is answered (C159_any_bounds_violated). Violated for every new instant too.

**C160 — Removing the dates common to two intervals which have none removes nothing** (partial; `Props/ConflictReached.lean`, `Props/ConflictRemove.lean`).
Modelled: src/graph/scheduler.rs: remove, retain; src/ops/compl.rs: not; src/iter/intersect.rs: next; src/relns/contain.rs: contains.
Method: Props/ConflictRemove.lean: the negation of bounds in the wrong order is two intervals which overlap (compl_wrong); the loop of the intersection cuts a slot in two parts which overlap and the collection puts them together again (inter_overlapping), for every canonical set; the answer is characterized exactly.
Theorems: `C160_reached_partial`, `C160_reached_violated`, `C160_unchanged_partial`, `C160_violated`.
Scope: Never refused, and answered Ok(Unchanged) with the schedule untouched exactly when no slot of the instant goes on across the beginning of b (C160_unchanged_partial). Violated for all other slots: no date of the instant is removed and no assignment is lost, but the answer is Ok(Propagated) and the propagation is done again (C160_violated). C160_reached_partial and C160_reached_violated say the same of the schedules after any history of requests, which may show intervals without a date.

## Axioms of each theorem

Printed by `#print axioms` for every theorem of the manifest. Nothing else occurs.

* **no axiom** (5 theorems): `C05_from_secs_violated`, `C22_timestamp_forms`, `C44_mul_zero_partial`, `C99_violated`, `C138_replace`
* **propext** (11 theorems): `C25_overlaps_symm`, `C61_empty_rejected`, `C65_single`, `C65_empty_interval_violated`, `C66_propagate_never_fatal`, `C69_out_of_range`, `C113_injective`, `C117_take`, `C119_intervals`, `C119_interval_stops`, `C147_once`
* **propext, Classical.choice, Quot.sound** (631 theorems): `C01_add_table`, `C02_add_comm`, `C02_add_mono`, `C02_add_zero`, `C02_sum_exact`, `C03_neg`, `C03_add_sub_cancel`, `C03_ts_sub_add`, `C03_operators`, `C04_neighbours`, `C04_inverse`, `C05_arith_legal_partial`, `C05_from_secs_legal_partial`, `C05_from_secs_exact_partial`, `C05_units_exact_partial`, `C05_fract_exact_partial`, `C05_fract_release_partial`, `C06_below_exact`, `C07_subsec`, `C07_mono_odd`, `C07_underflow_violated`, `C08_decompose`, `C09_std_roundtrip`, `C09_chrono_overflow`, `C09_chrono_roundtrip`, `C10_floor`, `C10_floor_idem`, `C11_ceil_positive_partial`, `C11_ceil_nonpositive_partial`, `C11_ceil_violated`, `C12_trunc_nonneg_partial`, `C12_trunc_neg_partial`, `C12_secs_partial`, `C12_violated`, `C13_mul_big_partial`, `C14_div_finite_partial`, `C14_div_exact`, `C14_div_inf_violated`, `C15_dates`, `C15_wellformed`, `C16_is_empty_exact`, `C16_dates`, `C16_predicates_partial`, `C17_inter`, `C18_is_empty_partial`, `C18_inter_violated`, `C19_union`, `C20_compl`, `C20_point_compl`, `C21_truncate`, `C22_add_span`, `C22_neg`, `C22_sub_span`, `C22_translate`, `C23_predicates_partial`, `C23_range_singleton`, `C23_ranges`, `C24_centered`, `C24_enlarge`, `C24_shrink`, `C25_contains_exact`, `C25_overlaps_exact`, `C25_contains_partial`, `C25_overlaps_partial`, `C25_violated`, `C26_duration`, `C27_compl`, `C28_double_compl`, `C29_union_sound`, `C29_union_convex_sound`, `C30_union_complete_partial`, `C30_union_violated`, `C30_union_exact`, `C30_lossless_exact`, `C30_union_convex_partial`, `C30_one_order`, `C30_union_convex_exact`, `C31_union_canonical`, `C31_union_convex_canonical`, `C31_from_sets_canonical`, `C32_inter`, `C32_inter_convex`, `C33_inter_canonical_partial`, `C33_inter_exact`, `C33_inter_violated`, `C33_inter_touch_violated`, `C34_set_eq`, `C34_iv_set_eq`, `C35_contains_exact`, `C35_contains_empty_exact`, `C35_contains_set_exact`, `C35_convex_contains_set_exact`, `C35_contains_partial`, `C35_contains_set_partial`, `C35_convex_contains_set_partial`, `C35_violated`, `C36_overlaps_exact`, `C36_overlaps_partial`, `C37_truncate_before`, `C37_truncate_after`, `C37_inter_assign`, `C37_truncate_infinite_violated`, `C38_collect_left`, `C38_lossless_exact`, `C38_collect_sets_violated`, `C38_collect_decreasing_violated`, `C38_collect_partial`, `C38_collect_sets_partial`, `C38_collect_sound_partial`, `C38_collect_exact`, `C38_collect_violated`, `C38_collect_empty_violated`, `C39_neg`, `C40_add`, `C40_sub`, `C40_timestamp`, `C41_add_span`, `C41_sub_span`, `C42_add_spans_exact`, `C42_sub_spans_exact`, `C42_sub_spans_violated`, `C42_add_spans_sound_partial`, `C42_add_spans_partial`, `C42_convex_operand_partial`, `C42_sub_spans_sound_partial`, `C42_violated`, `C43_mul_partial`, `C45_div`, `C46_compl_iter`, `C47_exclusion`, `C48_any_chain_partial`, `C48_violated`, `C48_chain`, `C49_eq_exact`, `C49_lt`, `C49_eq`, `C49_partial_cmp`, `C49_strict_order`, `C50_bounds`, `C50_predicates`, `C50_convex_count`, `C50_is_all_partial`, `C51_compl_fused`, `C52_pipeline_partial`, `C52_plain_pipeline`, `C52_pipeline_violated`, `C52_new_pipeline`, `C52_compl_hint_partial`, `C52_union_violated`, `C52_compl_violated`, `C53_forward_partial`, `C53_accepted`, `C53_violated`, `C54_forward_partial`, `C54_forward_violated`, `C54_backward_partial`, `C54_backward_violated`, `C55_nth_beyond_partial`, `C55_violated`, `C55_backward_violated`, `C55_exact_partial`, `C55_backward_exact_partial`, `C56_backward_partial`, `C56_accepted`, `C56_violated`, `C57_forward_periods_partial`, `C57_violated`, `C58_cells_injective`, `C58_cells_cover`, `C58_write_read`, `C58_resize`, `C59_operation`, `C59_history`, `C59_start`, `C59_queries`, `C59_clean`, `C59_tidy`, `C60_unchanged_iff`, `C60_unchanged_any_bounds`, `C61_recovered_iff`, `C61_empty_window`, `C61_recovered_any_bounds`, `C62_window_constraint`, `C62_window_usable`, `C62_solutions`, `C62_solutions_growth`, `C62_self_violated`, `C62_any_bounds`, `C63_history`, `C63_any_bounds`, `C63_from_minimal`, `C64_growth_partial`, `C64_exact_partial`, `C64_exact_reverse_partial`, `C64_deduction_violated`, `C64_growth_violated`, `C65_any_bounds`, `C65_contradiction`, `C65_contradicts_graph`, `C65_empty_panics_violated`, `C65_extend`, `C66_fatal_partial`, `C66_stale_violated`, `C67_any_bounds`, `C67_contradiction`, `C67_merge`, `C67_unchanged`, `C67_symmetric`, `C68_order`, `C68_extend_order`, `C69_instant_cmp`, `C69_are_distinct`, `C70_antisymmetric`, `C70_constraint`, `C70_to_tuple`, `C70_equiv`, `C71_iter`, `C72_from_partial`, `C72_out_of_range`, `C72_to`, `C72_first_violated`, `C73_rebuild`, `C74_reset`, `C74_resize`, `C74_grow`, `C74_shrink`, `C75_reached_partial`, `C75_reached_remove_partial`, `C75_reached_clean_partial`, `C75_reached_clean_remove_partial`, `C75_reached_violated`, `C75_untouched`, `C75_unknown`, `C75_unchanged`, `C75_recovered_partial`, `C75_remove`, `C75_violated`, `C76_debug_exact`, `C76_remove_debug_exact`, `C76_history`, `C76_call`, `C76_debug_partial`, `C76_debug_violated`, `C77_retain_exact`, `C77_remove_exact`, `C77_pieces`, `C77_clean`, `C77_history`, `C77_shrinks`, `C77_retain_partial`, `C77_remove_partial`, `C77_violated`, `C78_history_partial`, `C78_extends_partial`, `C78_next_partial`, `C78_empty_violated`, `C79_reached_deadline_partial`, `C79_reached_startline_partial`, `C79_reached_violated`, `C79_deadline_partial`, `C79_startline_partial`, `C79_violated`, `C79_deadline_unchanged`, `C79_startline_unchanged`, `C81_words`, `C81_others`, `C81_text_determines`, `C81_reduced_partial`, `C81_violated`, `C82_sets`, `C82_timestamp_sets`, `C82_values`, `C82_shape`, `C83_exact`, `C83_set_exact`, `C83_interval_partial`, `C83_set_partial`, `C83_violated`, `C84_iter_partial`, `C84_exhausted_violated`, `C84_from_partial`, `C84_from_exhausted_violated`, `C84_release`, `C85_float`, `C85_translation_exact`, `C85_translation_partial`, `C85_scaling_partial`, `C85_violated`, `C86_increment_partial`, `C86_violated`, `C87_reverse_forward_partial`, `C87_reverse_backward_partial`, `C87_exhausted_violated`, `C88_last_partial`, `C88_violated`, `C88_backward_last_partial`, `C88_backward_violated`, `C89_backward_periods_partial`, `C89_greatest_violated`, `C89_violated`, `C89_after_violated`, `C90_deadline_partial`, `C90_startline_partial`, `C90_violated`, `C91_sets_partial`, `C91_interval`, `C91_timepoint_partial`, `C91_violated`, `C92_ticks`, `C92_units_partial`, `C92_subsec_partial`, `C93_structure`, `C93_is_all_partial`, `C94_to_datetime`, `C94_calendar`, `C94_of_datetime_partial`, `C94_roundtrip`, `C94_roundtrip_date`, `C94_violated`, `C95_now_partial`, `C95_elapsed_partial`, `C95_elapsed_any_partial`, `C95_violated`, `C96_display`, `C96_interval`, `C96_sets`, `C97_empty_exact`, `C97_sets_partial`, `C98_ieee`, `C98_exact`, `C98_error`, `C98_monotone`, `C98_monotone_factor`, `C98_div_error`, `C98_div_monotone`, `C98_infinite_partial`, `C98_violated`, `C98_odd_violated`, `C99_interval`, `C99_interval_div`, `C99_interval_div_panic_partial`, `C99_sets_points`, `C99_sets_canonical_partial`, `C99_nan_violated`, `C99_zero_violated`, `C100_debug`, `C100_debug_determines`, `C100_constraint`, `C100_constraint_determines`, `C101_display`, `C101_display_determines`, `C102_debug`, `C102_debug_determines`, `C102_display`, `C102_format_partial`, `C102_violated`, `C102_reached_debug`, `C102_reached_determines`, `C102_reached_display`, `C102_reached_format_partial`, `C103_extend`, `C103_collect_partial`, `C103_self_violated`, `C104_step_by`, `C104_contract_partial`, `C104_dates_partial`, `C104_rewrite_partial`, `C104_touch_violated`, `C104_scaling_violated`, `C104_translate_span`, `C104_float_violated`, `C105_inter_comm`, `C105_inter_assoc`, `C105_inter_units`, `C105_excluded_middle`, `C105_contradiction_violated`, `C105_union_units`, `C105_union_comm_partial`, `C105_union_comm_violated`, `C105_union_assoc_partial`, `C105_absorb_union_partial`, `C105_de_morgan_union_partial`, `C105_de_morgan_inter_partial`, `C105_distrib_partial`, `C105_absorb`, `C105_union_comm_exact`, `C105_absorb_union_exact`, `C105_de_morgan_union_exact`, `C105_de_morgan_inter_exact`, `C106_small_partial`, `C106_limit_violated`, `C107_floor_violated`, `C107_ceil_violated`, `C107_floor_partial`, `C107_ceil_partial`, `C108_shrink_to_partial`, `C109_add_span`, `C109_sub_span`, `C109_translate`, `C109_assign_violated`, `C109_round_trip_violated`, `C110_translate_partial`, `C110_translate_others`, `C110_iter_partial`, `C110_iter_violated`, `C110_empty_violated`, `C110_add_span`, `C110_sub_span`, `C110_add_spans_violated`, `C111_predicates`, `C111_sum`, `C111_difference`, `C112_hash_points`, `C112_order_violated`, `C113_round_trip_partial`, `C113_fields`, `C113_interval_exact`, `C114_solutions`, `C114_next`, `C115_solutions`, `C115_next`, `C115_end_to_end`, `C116_skip_partial`, `C116_skip_violated`, `C116_step_by_violated`, `C116_step_by_one_violated`, `C116_backward_skip_partial`, `C116_backward_skip_violated`, `C116_backward_step_by_violated`, `C116_backward_step_by_one_violated`, `C117_lazy`, `C117_panic`, `C117_translation`, `C117_used`, `C118_operation`, `C118_history`, `C118_queries`, `C118_collect`, `C119_chains`, `C119_request`, `C119_requests`, `C119_program`, `C120_moved`, `C120_operations`, `C120_laws`, `C120_relations`, `C120_request`, `C120_requests`, `C120_built`, `C121_rename`, `C121_mirror`, `C121_direction`, `C121_batch`, `C122_operations`, `C122_relations`, `C122_union_partial`, `C122_union_violated`, `C122_intervals`, `C122_translations`, `C122_set_translations`, `C123_request`, `C123_requests_partial`, `C123_convex`, `C123_program`, `C123_sets_violated`, `C124_history`, `C124_batch`, `C125_meaning_partial`, `C125_order_partial`, `C125_repeat_partial`, `C125_set_violated`, `C125_order_violated`, `C126_greedy_partial`, `C126_set_violated`, `C127_refused`, `C127_kept_partial`, `C127_set_violated`, `C127_graph`, `C128_graph`, `C128_sched_partial`, `C128_empty_violated`, `C128_reached_violated`, `C129_graph_partial`, `C129_next_partial`, `C129_sched`, `C129_requests_partial`, `C129_growth_violated`, `C130_bounds`, `C130_ending_partial`, `C130_beginning_partial`, `C130_extremes_partial`, `C130_graph`, `C130_set_violated`, `C131_origin_partial`, `C131_empty_violated`, `C132_graph_partial`, `C132_answers_partial`, `C132_sched_partial`, `C132_set_violated`, `C133_span_partial`, `C133_choose_partial`, `C133_deduction_violated`, `C134_solutions`, `C134_converge_partial`, `C134_exchange_partial`, `C135_route_partial`, `C135_rest_partial`, `C135_sched_partial`, `C135_date_partial`, `C135_growth_violated`, `C135_set_violated`, `C136_writes`, `C136_propagate`, `C136_extend`, `C136_merge`, `C136_iterator`, `C136_history`, `C136_next`, `C136_deduce_violated`, `C136_contradiction_violated`, `C137_writes`, `C137_request`, `C137_history`, `C137_next`, `C137_undone_violated`, `C138_interval`, `C138_interval_others`, `C138_translate`, `C138_translate_violated`, `C138_canonical_exact`, `C138_canonical_violated`, `C138_scale_violated`, `C139_sets`, `C139_others`, `C139_calculation`, `C139_turns`, `C139_shortest`, `C140_quiet`, `C140_quiet_requests`, `C140_requests`, `C141_durations`, `C141_spans`, `C141_undo`, `C141_monotone`, `C141_scale`, `C141_divide`, `C141_back`, `C141_distribute`, `C142_floor_exact`, `C142_ceil_exact`, `C142_monotone`, `C142_floor_shift`, `C142_ceil_shift_partial`, `C142_floor_nested`, `C142_ceil_nested`, `C142_unit_violated`, `C142_units_nested`, `C142_mirror_exact`, `C142_mirror_violated`, `C142_infinite_violated`, `C142_legal_violated`, `C143_longest`, `C143_inside`, `C143_translate`, `C143_span`, `C143_cut`, `C143_enlarge`, `C143_end`, `C144_merge_is_extend`, `C144_one_by_one`, `C145_forward`, `C145_backward_violated`, `C145_backward_partial`, `C146_translation_violated`, `C146_sequences`, `C146_constraints`, `C147_turns`, `C147_items`, `C148_delay`, `C148_history`, `C148_collect`, `C148_earliest`, `C148_latest`, `C148_refused`, `C149_delay`, `C149_history`, `C149_collect`, `C149_margin`, `C149_earliest`, `C149_latest`, `C150_parts`, `C151_dates`, `C151_contains`, `C151_regroup`, `C151_translate_violated`, `C152_one_partial`, `C152_one_answer_partial`, `C152_two_partial`, `C152_two_answer_partial`, `C152_violated`, `C153_dates`, `C153_through`, `C153_built`, `C154_sets`, `C154_exact`, `C154_plan`, `C155_steps`, `C155_chain`, `C156_window`, `C156_ends`, `C156_built`, `C156_precedences`, `C157_sets`, `C157_sets_violated`, `C157_dates`, `C157_contains`, `C157_relations_violated`, `C157_canonical_violated`, `C157_translate_violated`, `C158_refused_partial`, `C158_violated`, `C158_reached_partial`, `C158_reached_violated`, `C159_refused_partial`, `C159_any_bounds_violated`, `C159_violated`, `C159_growth_violated`, `C160_reached_partial`, `C160_reached_violated`, `C160_unchanged_partial`, `C160_violated`
* **propext, Quot.sound** (61 theorems): `C06_from_secs_partial`, `C06_units_partial`, `C06_from_secs_violated`, `C09_std_negative`, `C13_mul_small_partial`, `C13_mul_inf`, `C13_mul_big_violated`, `C15_is_empty`, `C16_predicates_violated`, `C23_disjoint_violated`, `C23_empty_violated`, `C36_overlaps_set`, `C36_violated`, `C43_violated`, `C44_violated`, `C50_is_all_violated`, `C51_union_fused`, `C51_inter_fused`, `C52_inter_hint`, `C52_union_hint_partial`, `C59_limit`, `C70_equiv_sound`, `C80_bounds`, `C80_latest_beginning`, `C80_earliest_ending`, `C84_release_exhausted`, `C92_violated`, `C93_is_all_violated`, `C97_violated`, `C99_sets_panic`, `C106_same`, `C107_same`, `C108_shrink_to_violated`, `C111_product`, `C112_equivalence`, `C112_hash`, `C112_order_partial`, `C113_unchecked_violated`, `C113_reversed_violated`, `C113_set_exact`, `C117_terminates`, `C118_last_instant_violated`, `C119_sets`, `C119_set_stops`, `C119_next`, `C119_pipes`, `C123_queries`, `C133_growth_violated`, `C134_growth_violated`, `C136_resume`, `C138_results`, `C138_divide`, `C138_lookup_violated`, `C138_infinite_violated`, `C138_scale`, `C138_scale_float`, `C139_arith`, `C140_propagate`, `C140_extend`, `C140_merge`, `C146_over_partial`
