{"id": "C01", "title": "Duration addition is exact, saturating, and absorbs infinities", "statement": "For durations a,b in [-oo,+oo]: a+b panics exactly when one is +oo and the other -oo; otherwise, if one is infinite the sum is that infinity; otherwise the sum is the exact tick sum when that lies strictly between -oo and +oo, +oo when it is at least +oo and -oo when it is at most -oo.", "quantifier": "all pairs of representable durations", "why_tests_cant": "The value space has 2^64 (pairs: 2^128) members; the failures sit on saturation and infinity boundaries a sample misses.", "anchors": ["src/wins/timevalue.rs: impl Add for TimeValue", "src/wins/timevalue.rs: TimeValue::from_ticks"]}
{"id": "C02", "title": "Duration addition is commutative, monotone and has 0 as unit; a sum over a list equals the exact sum when no prefix overflows", "statement": "a+b and b+a both panic or give the same value; a<=a' implies a+b<=a'+b; a+0=a; iter.sum() equals the exact tick sum whenever every prefix sum is finite.", "quantifier": "all durations, all finite lists of durations", "why_tests_cant": "The value space has 2^64 (pairs: 2^128) members; the failures sit on saturation and infinity boundaries a sample misses.", "anchors": ["src/wins/timevalue.rs: impl Add for TimeValue", "src/wins/timevalue.rs: impl Sum for TimeValue"]}
{"id": "C03", "title": "Negation is an order-reversing involution and subtraction inverts addition", "statement": "-(-a)=a, a<=b iff -b<=-a, -(+oo)=-oo; a-b = a+(-b); for finite a,b with a finite sum, (a+b)-b = a; date differences d2-d1 added to d1 give d2 back when they are finite.", "quantifier": "all durations and timestamps", "why_tests_cant": "The value space has 2^64 (pairs: 2^128) members; the failures sit on saturation and infinity boundaries a sample misses.", "anchors": ["src/wins/timevalue.rs: impl Neg, Sub for TimeValue", "src/wins/timestamp.rs: impl Sub, Add<TimeValue> for Timestamp"]}
{"id": "C04", "title": "just_after/just_before are the adjacent ticks and fix infinities", "statement": "For a finite point there is nothing strictly between t and t.just_after(); just_after and just_before are mutually inverse unless they reach an infinity; both leave +-oo unchanged; both are monotone.", "quantifier": "all time points", "why_tests_cant": "The value space has 2^64 (pairs: 2^128) members; the failures sit on saturation and infinity boundaries a sample misses.", "anchors": ["src/wins/timevalue.rs: TimePoint for TimeValue", "src/lib.rs: trait TimePoint"]}
{"id": "C05", "title": "Every duration built by the safe constructors stays in the documented range", "statement": "from_ticks, from_secs, from_mins.., from_millis.. and duration arithmetic never yield a value outside [-INFINITE, +INFINITE] (the raw i64::MIN is not a legal duration).", "quantifier": "all i64 arguments", "why_tests_cant": "The value space has 2^64 (pairs: 2^128) members; the failures sit on saturation and infinity boundaries a sample misses.", "anchors": ["src/wins/timevalue.rs: from_ticks, from_secs, from_fract, from_years..from_nanos"]}
{"id": "C06", "title": "Whole-second constructors are exact or saturate to the infinity of the same sign", "statement": "from_secs/mins/hours/days/weeks/months/years(n) is exactly n units in ticks if that is representable, and otherwise is +oo for positive n and -oo for negative n.", "quantifier": "all i64 counts and all units", "why_tests_cant": "The value space has 2^64 (pairs: 2^128) members; the failures sit on saturation and infinity boundaries a sample misses.", "anchors": ["src/wins/timevalue.rs: from_secs, from_mins, from_hours, from_days, from_weeks, from_months, from_years"]}
{"id": "C07", "title": "Sub-second constructors round towards zero by less than one tick", "statement": "from_millis/micros/nanos(n) is the exact value n/unit seconds truncated towards zero to a tick, for every n whose value is representable, hence monotone in n and odd.", "quantifier": "all i64 counts", "why_tests_cant": "The value space has 2^64 (pairs: 2^128) members; the failures sit on saturation and infinity boundaries a sample misses.", "anchors": ["src/wins/timevalue.rs: from_fract, from_millis, from_micros, from_nanos"]}
{"id": "C08", "title": "as_secs and the subsec accessors decompose a duration", "statement": "For any duration, as_secs is the floor in seconds, subsec_nanos is in [0,999999999], the accessors do not overflow, and as_secs*10^9+subsec_nanos is within one nanosecond of the exact value; subsec_micros/millis are the same value in coarser units.", "quantifier": "all durations", "why_tests_cant": "The value space has 2^64 (pairs: 2^128) members; the failures sit on saturation and infinity boundaries a sample misses.", "anchors": ["src/wins/timevalue.rs: as_secs, subsec_nanos, subsec_micros, subsec_millis", "src/lib.rs: SUBSEC_BITMASK"]}
{"id": "C09", "title": "Conversions to and from std/chrono durations lose at most one nanosecond", "statement": "std Duration -> TimeValue -> std Duration and chrono nanoseconds -> TimeValue -> chrono nanoseconds give back the original or one nanosecond less for non-negative in-range durations; converting a negative TimeValue to std Duration panics.", "quantifier": "all nanosecond counts", "why_tests_cant": "The value space has 2^64 (pairs: 2^128) members; the failures sit on saturation and infinity boundaries a sample misses.", "anchors": ["src/wins/timevalue.rs: From<time::Duration>, From<TimeValue> for time::Duration, From<chrono::Duration>"]}
{"id": "C10", "title": "floor gives the greatest multiple of the period not after the value", "statement": "For a strictly positive period and a finite value whose floor is representable, floor returns the unique multiple m of the period with m <= t < m+period, without overflow. Timestamps behave the same.", "quantifier": "all values and all positive periods", "why_tests_cant": "The value space has 2^64 (pairs: 2^128) members; the failures sit on saturation and infinity boundaries a sample misses.", "anchors": ["src/wins/timevalue.rs: TimeValue::floor", "src/wins/timestamp.rs: Timestamp::floor"]}
{"id": "C11", "title": "ceil gives the least multiple of the period not before the value", "statement": "For a strictly positive period and a finite value whose ceiling is representable, ceil returns the unique multiple m of the period with m-period < t <= m. Timestamps behave the same.", "quantifier": "all values and all positive periods", "why_tests_cant": "The value space has 2^64 (pairs: 2^128) members; the failures sit on saturation and infinity boundaries a sample misses.", "anchors": ["src/wins/timevalue.rs: TimeValue::ceil", "src/wins/timestamp.rs: Timestamp::ceil"]}
{"id": "C12", "title": "Unit truncation of a duration keeps whole units, towards zero", "statement": "t.years(), t.months(), t.weeks(), t.days(), t.hours(), t.mins(), t.secs(), t.millis(), t.micros(), t.nanos() on a duration return the multiple of that unit obtained by rounding towards zero.", "quantifier": "all durations and all units", "why_tests_cant": "The value space has 2^64 (pairs: 2^128) members; the failures sit on saturation and infinity boundaries a sample misses.", "anchors": ["src/wins/convert.rs: impl IntoTimeValue for TimeValue"]}
{"id": "C13", "title": "Integer scaling of a duration is exact or saturates with the right sign", "statement": "t*n is the exact product when representable, otherwise the infinity with the sign of the product, for every integer scale type; infinities keep their nature under a non-zero factor.", "quantifier": "all durations, all integer factors of every width", "why_tests_cant": "The value space has 2^64 (pairs: 2^128) members; the failures sit on saturation and infinity boundaries a sample misses.", "anchors": ["src/ops/scaling.rs: timevalscalingsmall, timevalscalingbig, timevalscalingubig"]}
{"id": "C14", "title": "Integer division of a duration truncates towards zero and keeps infinities infinite", "statement": "t/n for n<>0 is the exact quotient truncated towards zero for finite t, and an infinite duration divided by a non-zero integer remains infinite; n=0 panics.", "quantifier": "all durations, all integer divisors", "why_tests_cant": "The value space has 2^64 (pairs: 2^128) members; the failures sit on saturation and infinity boundaries a sample misses.", "anchors": ["src/ops/scaling.rs: Div for TimeValue"]}
{"id": "C15", "title": "Interval constructors denote exactly the dates they name and are never ill-formed", "statement": "new(a,b), singleton, after, before, all, empty contain exactly the finite dates t with a<=t<=b (resp. =t, >=t, <=t, all, none); each result is either well-formed (lower<=upper, lower<+oo, upper>-oo) or the canonical empty interval, and is_empty is right for it.", "quantifier": "all bounds, finite or infinite", "why_tests_cant": "The value space has 2^64 (pairs: 2^128) members; the failures sit on saturation and infinity boundaries a sample misses.", "anchors": ["src/wins/timeinterval.rs: TimeInterval::new, singleton, after, before, all, empty"]}
{"id": "C16", "title": "Rust ranges used as windows denote their usual set", "statement": "a..b, a..=b, a.., ..b, ..=b converted to an interval contain exactly the finite dates of the range, and the bound predicates is_empty/is_low_bounded/is_up_bounded agree with it.", "quantifier": "all range bounds", "why_tests_cant": "The value space has 2^64 (pairs: 2^128) members; the failures sit on saturation and infinity boundaries a sample misses.", "anchors": ["src/ops/range.rs"]}
{"id": "C17", "title": "Interval intersection contains exactly the common dates", "statement": "A date is in a & b iff it is in a and in b, for every pair of convex windows of any kind; &= gives the same dates.", "quantifier": "all pairs of convex windows", "why_tests_cant": "The value space has 2^64 (pairs: 2^128) members; the failures sit on saturation and infinity boundaries a sample misses.", "anchors": ["src/ops/intersect.rs: BitAnd, BitAndAssign for TimeInterval"]}
{"id": "C18", "title": "An interval reports empty iff it contains no date", "statement": "For every interval the API can return, in particular a & b, is_empty() is true iff the interval contains no date.", "quantifier": "all intervals obtainable through constructors and &", "why_tests_cant": "The value space has 2^64 (pairs: 2^128) members; the failures sit on saturation and infinity boundaries a sample misses.", "anchors": ["src/wins/timeinterval.rs: TimeBounds::is_empty", "src/ops/intersect.rs"]}
{"id": "C19", "title": "Interval union contains exactly the dates of both and is canonical", "statement": "a | b for intervals, points and ranges contains a date iff a or b does, and the resulting set is chronologically sorted, disjoint and merged (touching intervals fused).", "quantifier": "all pairs of well-formed or empty convex windows", "why_tests_cant": "The value space has 2^64 (pairs: 2^128) members; the failures sit on saturation and infinity boundaries a sample misses.", "anchors": ["src/ops/union.rs: BitOr for TimeInterval, TimeValue, Timestamp"]}
{"id": "C20", "title": "Interval and point complement contain exactly the other dates", "statement": "!i (interval) and !t (time point) contain a finite date iff the operand does not, and are canonical sets.", "quantifier": "all well-formed intervals and points", "why_tests_cant": "The value space has 2^64 (pairs: 2^128) members; the failures sit on saturation and infinity boundaries a sample misses.", "anchors": ["src/ops/compl.rs"]}
{"id": "C21", "title": "Interval truncation keeps exactly the dates on the right side and reports change truthfully", "statement": "truncate_before(l)/truncate_after(u) keep exactly the dates >= l / <= u, return true iff the interval value changed, and leave a well-formed or empty interval for finite cuts.", "quantifier": "all intervals and cut points", "why_tests_cant": "The value space has 2^64 (pairs: 2^128) members; the failures sit on saturation and infinity boundaries a sample misses.", "anchors": ["src/wins/timeinterval.rs: TimeTruncation for TimeInterval"]}
{"id": "C22", "title": "Interval translation is the exact Minkowski sum", "statement": "Within range, t is in i+d iff t-d is in i; t is in i+s (s a span) iff t = a+b with a in i and b in s; i-s likewise; -i contains t iff i contains -t; unbounded ends stay unbounded; opposite-infinity panics cannot occur for well-formed operands and finite d.", "quantifier": "all well-formed intervals, spans and durations without tick overflow", "why_tests_cant": "The value space has 2^64 (pairs: 2^128) members; the failures sit on saturation and infinity boundaries a sample misses.", "anchors": ["src/ops/transl.rs", "src/wins/timeinterval.rs: Neg"]}
{"id": "C23", "title": "Boundedness predicates match the documentation", "statement": "is_low_bounded/is_up_bounded/is_bounded are true iff the window is non-empty and has a finite bound on that side (documented: false for an empty window); is_singleton iff exactly one date.", "quantifier": "all windows including empty ones", "why_tests_cant": "The value space has 2^64 (pairs: 2^128) members; the failures sit on saturation and infinity boundaries a sample misses.", "anchors": ["src/wins/mod.rs: TimeBounds", "src/wins/timeinterval.rs: TimeBounds for TimeInterval"]}
{"id": "C24", "title": "centered and enlarge build the documented interval", "statement": "centered(o,d) is None iff d<0 and otherwise contains exactly the dates within d of o; enlarge(d) contains exactly the dates within d of the interval for d>=0, undoes itself for negative d of the same magnitude, and is None iff nothing is left.", "quantifier": "all origins and deltas without overflow", "why_tests_cant": "The value space has 2^64 (pairs: 2^128) members; the failures sit on saturation and infinity boundaries a sample misses.", "anchors": ["src/wins/timeinterval.rs: centered, enlarge"]}
{"id": "C25", "title": "Convex containment and overlap tests decide subset and intersection", "statement": "a.contains(b) iff every date of b is in a; a.overlaps(b) iff some date is in both; overlap is symmetric.", "quantifier": "all pairs of convex windows", "why_tests_cant": "The value space has 2^64 (pairs: 2^128) members; the failures sit on saturation and infinity boundaries a sample misses.", "anchors": ["src/relns/contain.rs", "src/relns/overlap.rs"]}
{"id": "C26", "title": "Slot duration is the distance between its bounds", "statement": "duration() of a non-empty bounded slot is upper-lower (saturating), 0 for empty or one-date slots and +oo for unbounded ones, and never panics.", "quantifier": "all slots", "why_tests_cant": "The value space has 2^64 (pairs: 2^128) members; the failures sit on saturation and infinity boundaries a sample misses.", "anchors": ["src/wins/timeinterval.rs: TimeSlot::duration"]}
{"id": "C27", "title": "Set complement contains exactly the other dates and is canonical", "statement": "For a canonical set s, !s contains a finite date iff s does not; !s is canonical.", "quantifier": "all canonical sets of any size", "why_tests_cant": "Sets have unboundedly many intervals in unboundedly many relative positions; a test fixes one arrangement.", "anchors": ["src/ops/compl.rs: Not for TimeSet"]}
{"id": "C28", "title": "Double complement is the identity", "statement": "!!s == s for every canonical set whose finite bounds are not the extreme representable ticks, and always contains the same finite dates as s.", "quantifier": "all canonical sets", "why_tests_cant": "Sets have unboundedly many intervals in unboundedly many relative positions; a test fixes one arrangement.", "anchors": ["src/ops/compl.rs: Not for TimeSet"]}
{"id": "C29", "title": "Set union never invents a date", "statement": "Every date in a | b (operator or iterator) is in a or in b.", "quantifier": "all pairs of canonical sets", "why_tests_cant": "Sets have unboundedly many intervals in unboundedly many relative positions; a test fixes one arrangement.", "anchors": ["src/iter/union.rs: IterUnion", "src/ops/union.rs"]}
{"id": "C30", "title": "Set union never loses a date", "statement": "Every date of a and every date of b is in a | b (operator or iterator).", "quantifier": "all pairs of canonical sets", "why_tests_cant": "Sets have unboundedly many intervals in unboundedly many relative positions; a test fixes one arrangement.", "anchors": ["src/iter/union.rs: IterUnion", "src/ops/union.rs"]}
{"id": "C31", "title": "Set union is canonical", "statement": "The intervals yielded by a union are sorted, disjoint, non-touching and well-formed.", "quantifier": "all pairs of canonical sets", "why_tests_cant": "Sets have unboundedly many intervals in unboundedly many relative positions; a test fixes one arrangement.", "anchors": ["src/iter/union.rs: IterUnion"]}
{"id": "C32", "title": "Set intersection contains exactly the common dates", "statement": "A date is in a & b iff it is in a and in b, for sets and for set & convex window, by operator or iterator.", "quantifier": "all pairs of canonical sets", "why_tests_cant": "Sets have unboundedly many intervals in unboundedly many relative positions; a test fixes one arrangement.", "anchors": ["src/iter/intersect.rs: IterIntersection", "src/ops/intersect.rs"]}
{"id": "C33", "title": "Set intersection is canonical and is empty iff there is no common date", "statement": "The intervals yielded by an intersection are sorted, disjoint and well-formed; (a & b).is_empty() iff a and b share no date.", "quantifier": "all pairs of canonical sets", "why_tests_cant": "Sets have unboundedly many intervals in unboundedly many relative positions; a test fixes one arrangement.", "anchors": ["src/iter/intersect.rs: IterIntersection", "src/ops/intersect.rs"]}
{"id": "C34", "title": "Sets with the same dates compare equal", "statement": "Two canonical sets containing the same points (bounds included, where an infinite bound counts as a point) are == ; equality of an interval with a set is equality of dates.", "quantifier": "all pairs of canonical sets", "why_tests_cant": "Sets have unboundedly many intervals in unboundedly many relative positions; a test fixes one arrangement.", "anchors": ["src/relns/ordering.rs: PartialEq for TimeSet, TimeInterval"]}
{"id": "C35", "title": "Set containment decides subset", "statement": "s.contains(w) iff every date of w is in s, for w a non-empty convex window or a canonical set.", "quantifier": "all canonical sets and windows", "why_tests_cant": "Sets have unboundedly many intervals in unboundedly many relative positions; a test fixes one arrangement.", "anchors": ["src/relns/contain.rs: TimeContaining for TimeSet"]}
{"id": "C36", "title": "Set overlap decides non-empty intersection", "statement": "s.overlaps(w) iff some date is in both, for w a convex window or a canonical set, symmetric in its arguments.", "quantifier": "all canonical sets and windows", "why_tests_cant": "Sets have unboundedly many intervals in unboundedly many relative positions; a test fixes one arrangement.", "anchors": ["src/relns/overlap.rs: TimeOverlapping"]}
{"id": "C37", "title": "Set truncation and in-place intersection with a window are exact", "statement": "truncate_before/after keep exactly the dates on that side, keep the set canonical, and return true iff the set changed; s &= w keeps exactly the dates of s in w.", "quantifier": "all canonical sets, finite cut points, well-formed windows", "why_tests_cant": "Sets have unboundedly many intervals in unboundedly many relative positions; a test fixes one arrangement.", "anchors": ["src/wins/timeset.rs: TimeTruncation for TimeSet", "src/ops/intersect.rs: BitAndAssign for TimeSet"]}
{"id": "C38", "title": "Collecting intervals into a set yields their union", "statement": "iter.collect::<TimeSet>() of arbitrary intervals contains exactly the dates of the intervals and is canonical, in whatever order they come.", "quantifier": "all finite sequences of intervals", "why_tests_cant": "Sets have unboundedly many intervals in unboundedly many relative positions; a test fixes one arrangement.", "anchors": ["src/wins/timeset.rs: FromIterator<TimeInterval> for TimeSet", "src/wins/timeset.rs: FromIterator<TimeSet>"]}
{"id": "C39", "title": "Negating a set mirrors it", "statement": "-s contains t iff s contains -t; -s is canonical; -(-s)=s.", "quantifier": "all canonical sets", "why_tests_cant": "Sets have unboundedly many intervals in unboundedly many relative positions; a test fixes one arrangement.", "anchors": ["src/wins/timeset.rs: Neg for TimeSet"]}
{"id": "C40", "title": "Translating a set by a duration shifts every date", "statement": "Within range, t in s+d iff t-d in s, s+d is canonical and (s+d)-d = s; same for set+timestamp and timestamp-set.", "quantifier": "all canonical sets and durations without overflow", "why_tests_cant": "Sets have unboundedly many intervals in unboundedly many relative positions; a test fixes one arrangement.", "anchors": ["src/ops/transl.rs: Add<TimeValue> for TimeSet"]}
{"id": "C41", "title": "Translating a set by a span is the Minkowski sum", "statement": "Within range, t in s+span iff t=a+b with a in s and b in span; the result is canonical; same for s-span and for the translation iterator.", "quantifier": "all canonical sets and spans without overflow", "why_tests_cant": "Sets have unboundedly many intervals in unboundedly many relative positions; a test fixes one arrangement.", "anchors": ["src/ops/transl.rs: Add<TimeSpan> for TimeSet", "src/iter/transl.rs"]}
{"id": "C42", "title": "Adding a set of spans is the Minkowski sum", "statement": "Within range, t in s+spans iff t=a+b with a in s and b in spans.", "quantifier": "all canonical sets without overflow", "why_tests_cant": "Sets have unboundedly many intervals in unboundedly many relative positions; a test fixes one arrangement.", "anchors": ["src/ops/transl.rs: Add<TimeSpans> for TimeSet"]}
{"id": "C43", "title": "Scaling a set by a non-zero integer maps every date and keeps the set canonical", "statement": "For n<>0 with no overflow, s*n is canonical, each interval [a,b] becomes [a*n,b*n] (swapped for negative n), and t in s implies t*n in s*n; *= agrees with *.", "quantifier": "all canonical sets, all non-zero integers", "why_tests_cant": "Sets have unboundedly many intervals in unboundedly many relative positions; a test fixes one arrangement.", "anchors": ["src/ops/scaling.rs: Mul/MulAssign for TimeSpans"]}
{"id": "C44", "title": "Scaling a non-empty set by zero gives {0}", "statement": "s*0 contains exactly the date 0 if s is non-empty and is empty if s is empty.", "quantifier": "all canonical sets", "why_tests_cant": "Sets have unboundedly many intervals in unboundedly many relative positions; a test fixes one arrangement.", "anchors": ["src/ops/scaling.rs: Mul for TimeSpans, n == 0"]}
{"id": "C45", "title": "Dividing a set by an integer keeps it canonical and maps every date", "statement": "For n<>0, t in s implies t/n in s/n and s/n is canonical (joined intervals merged).", "quantifier": "all canonical sets with finite bounds, all non-zero divisors", "why_tests_cant": "Sets have unboundedly many intervals in unboundedly many relative positions; a test fixes one arrangement.", "anchors": ["src/ops/scaling.rs: DivAssign for TimeSpans, check_joined_inners"]}
{"id": "C46", "title": "The complement iterator agrees with the ! operator", "statement": "s.iter().complementary() yields exactly the intervals of !s, in order.", "quantifier": "all canonical sets", "why_tests_cant": "Sets have unboundedly many intervals in unboundedly many relative positions; a test fixes one arrangement.", "anchors": ["src/iter/compl.rs: IterComplementary"]}
{"id": "C47", "title": "The exclusion iterator removes exactly the excluded dates", "statement": "a.iter().exclusion(b) contains a finite date iff a does and b does not.", "quantifier": "all pairs of canonical sets", "why_tests_cant": "Sets have unboundedly many intervals in unboundedly many relative positions; a test fixes one arrangement.", "anchors": ["src/iter/excl.rs"]}
{"id": "C48", "title": "Chained lazy iterators give the same result as the operators", "statement": "Collecting i.union(j), i.intersection(j), the README pipeline i.union(j).intersection(k), or any other chain of lazy operations gives the same set as the operator expression.", "quantifier": "all canonical sets", "why_tests_cant": "Sets have unboundedly many intervals in unboundedly many relative positions; a test fixes one arrangement.", "anchors": ["README.md", "src/iter/mod.rs", "src/ops/union.rs", "src/ops/intersect.rs"]}
{"id": "C49", "title": "Before/after comparison of windows is sound and complete", "statement": "For non-empty windows, a<b iff every date of a precedes every date of b, a==b iff they have the same dates; partial_cmp returns Less/Greater/Equal/None accordingly, < is a strict partial order.", "quantifier": "all pairs of non-empty canonical windows, extreme ticks included (where a window unbounded on one side equals only windows unbounded on that side)", "why_tests_cant": "Sets have unboundedly many intervals in unboundedly many relative positions; a test fixes one arrangement.", "anchors": ["src/relns/ordering.rs"]}
{"id": "C50", "title": "Set bounds, envelope and counts describe the set", "statement": "lower_bound/upper_bound of a non-empty canonical set are its least/greatest members; convex_envelope is the smallest interval containing it; is_empty, is_singleton, convex_count, is_bounded, is_all are right.", "quantifier": "all canonical sets", "why_tests_cant": "Sets have unboundedly many intervals in unboundedly many relative positions; a test fixes one arrangement.", "anchors": ["src/wins/timeset.rs: TimeBounds, TimeWindow for TimeSet", "src/wins/mod.rs: TimeWindow"]}
{"id": "C51", "title": "Window iterators are fused and finite", "statement": "The union, intersection and complement iterators terminate on finite inputs, and once next() has returned None it returns None forever.", "quantifier": "all inputs, all numbers of further calls", "why_tests_cant": "Termination and fusedness quantify over every input and every number of calls.", "anchors": ["src/iter/union.rs", "src/iter/intersect.rs", "src/iter/compl.rs"]}
{"id": "C52", "title": "size_hint of the window iterators bounds the number of remaining items", "statement": "At any point of the iteration, the number of items still to come is within the bounds announced by size_hint.", "quantifier": "all canonical inputs, all positions in the iteration", "why_tests_cant": "Sets have unboundedly many intervals in unboundedly many relative positions; a test fixes one arrangement.", "anchors": ["src/iter/union.rs: size_hint", "src/iter/intersect.rs: size_hint", "src/iter/compl.rs: size_hint"]}
{"id": "C53", "title": "A forward sequence yields start, start+period, start+2*period, ... until the end of time", "statement": "The n-th call to next() on t.forward_sequence(p) returns t+n*p as long as that is finite, then None forever.", "quantifier": "all finite starts, all positive periods, all n", "why_tests_cant": "The sequence has up to 2^63 elements; tests look at a few.", "anchors": ["src/seq/forward.rs: next, new", "src/seq/mod.rs"]}
{"id": "C54", "title": "len/size_hint/count of a sequence equal the number of elements it yields", "statement": "len(), count() and both bounds of size_hint() equal the number of Some results next() will still return.", "quantifier": "all sequences at all positions", "why_tests_cant": "The sequence has up to 2^63 elements; tests look at a few.", "anchors": ["src/seq/forward.rs: len", "src/seq/backward.rs: len"]}
{"id": "C55", "title": "nth(n) equals n+1 calls to next()", "statement": "seq.nth(n) returns the same element, and leaves the same state, as calling next() n+1 times and keeping the last result.", "quantifier": "all sequences, all n", "why_tests_cant": "The sequence has up to 2^63 elements; tests look at a few.", "anchors": ["src/seq/forward.rs: nth", "src/seq/backward.rs: nth"]}
{"id": "C56", "title": "A backward sequence yields start, start-period, start-2*period, ...", "statement": "The n-th call to next() on t.backward_sequence(p) returns t-n*p as long as that is finite, then None forever.", "quantifier": "all finite starts, all positive periods, all n", "why_tests_cant": "The sequence has up to 2^63 elements; tests look at a few.", "anchors": ["src/seq/backward.rs: new, next"]}
{"id": "C57", "title": "forward_periods yields exactly the multiples of the period from the start on", "statement": "t.forward_periods(p) yields, in order, all representable multiples of p that are >= t.", "quantifier": "all finite starts, all positive periods", "why_tests_cant": "The sequence has up to 2^63 elements; tests look at a few.", "anchors": ["src/seq/mod.rs: forward_periods", "src/wins/timestamp.rs: ceil"]}
{"id": "C58", "title": "Graph storage keeps every pair of instants in its own cell, unaffected by growth", "statement": "Writing the constraint of one ordered pair never changes what is read for another pair; growing the graph changes no existing constraint and the new instants are unconstrained; each stored cell corresponds to exactly one pair.", "quantifier": "all sizes up to 65535 and graphs which have not failed fatally (C66), all pairs", "why_tests_cant": "The layout is a quadratic index function; injectivity for all sizes is not testable.", "anchors": ["src/graph/storage.rs: lower, lower_mut, resize, timespan"]}
{"id": "C59", "title": "No operation reads or writes outside the graph's memory", "statement": "For graphs of at most 65535 instants, propagate, extend, merge, resize, reset, timespan, constraint, instant_cmp, iter, constraints_from never index outside the allocated vector and never overflow u32 index arithmetic; an instant >= 65535 makes resize overflow.", "quantifier": "all histories of operations", "why_tests_cant": "The graph is reached by unboundedly long histories over unboundedly many instants; tests fix a few small graphs.", "anchors": ["src/graph/storage.rs", "src/graph/propagation.rs", "src/graph/constraints.rs"]}
{"id": "C60", "title": "propagate reports Unchanged iff the constraint already follows", "statement": "On a graph in its minimal form, propagate((i,j),k) with i,j in the graph returns Ok(Unchanged) iff every assignment of dates satisfying the graph satisfies k; then the graph is untouched.", "quantifier": "all minimal graphs, all constraints on existing instants", "why_tests_cant": "The graph is reached by unboundedly long histories over unboundedly many instants; tests fix a few small graphs.", "anchors": ["src/graph/propagation.rs: propagate"]}
{"id": "C61", "title": "propagate fails iff the constraint contradicts the graph, and then leaves it untouched", "statement": "propagate returns Err(Recovered) iff no assignment satisfies both the graph and the constraint; the graph is then unchanged; it never returns Fatal.", "quantifier": "all minimal graphs, all constraints on existing instants whose window is empty or has its bounds in order (the intersection of two disjoint intervals, whose bounds are in the wrong order, is the subject of C159)", "why_tests_cant": "The graph is reached by unboundedly long histories over unboundedly many instants; tests fix a few small graphs.", "anchors": ["src/graph/propagation.rs: propagate"]}
{"id": "C62", "title": "Successful propagation keeps exactly the assignments satisfying old graph and new constraint", "statement": "After Ok(_), an assignment satisfies the graph iff it satisfied it before and satisfies the new constraint.", "quantifier": "all graphs with any bounds, all constraints, all assignments of integer dates with representable delays; without tick overflow, all assignments", "why_tests_cant": "The graph is reached by unboundedly long histories over unboundedly many instants; tests fix a few small graphs.", "anchors": ["src/graph/propagation.rs: propagate, propagate_lower_bound"]}
{"id": "C63", "title": "The graph is always minimal: every announced duration is achievable", "statement": "After any history of accepted and rejected propagate calls on existing instants, for every i,j and every duration d in timespan(i,j) there is an assignment satisfying all accepted constraints with t_j - t_i = d, and every such assignment has t_j - t_i in timespan(i,j).", "quantifier": "all histories of propagate calls without tick overflow, with windows whose bounds are in order (for the others see C159), all pairs, all durations", "why_tests_cant": "The graph is reached by unboundedly long histories over unboundedly many instants; tests fix a few small graphs.", "anchors": ["src/graph/propagation.rs: propagate, propagate_lower_bound", "src/graph/storage.rs: timespan"]}
{"id": "C64", "title": "Propagating a constraint on an instant not yet in the graph keeps the graph minimal", "statement": "When propagate grows the graph, the consequences of the new constraint for already constrained instants are deduced as well.", "quantifier": "all minimal graphs, all constraints mentioning new instants", "why_tests_cant": "The graph is reached by unboundedly long histories over unboundedly many instants; tests fix a few small graphs.", "anchors": ["src/graph/propagation.rs: propagate (size() <= max branch)"]}
{"id": "C65", "title": "extend succeeds iff all constraints are jointly satisfiable, and then yields the minimal graph", "statement": "extend(ks) with several constraints returns Ok iff some assignment satisfies the graph and all ks; the new graph is then minimal and its solutions are exactly those assignments; otherwise Err(Fatal).", "quantifier": "all graphs, all finite lists of constraints without tick overflow", "why_tests_cant": "The graph is reached by unboundedly long histories over unboundedly many instants; tests fix a few small graphs.", "anchors": ["src/graph/propagation.rs: extend, global_propagation"]}
{"id": "C66", "title": "A fatal inconsistency empties the graph", "statement": "After Err(Fatal) the graph has no instant and no constraint: whatever is added later, no constraint from before the failure reappears.", "quantifier": "all histories continuing after a Fatal error", "why_tests_cant": "The graph is reached by unboundedly long histories over unboundedly many instants; tests fix a few small graphs.", "anchors": ["src/graph/propagation.rs: global_propagation", "src/graph/storage.rs: resize"]}
{"id": "C67", "title": "merge intersects the solution sets", "statement": "a.merge(b) returns Err(Fatal) iff no assignment satisfies both; otherwise the result is minimal with exactly the common solutions; Unchanged only if a is unchanged; merging is symmetric.", "quantifier": "all pairs of minimal graphs of any sizes without tick overflow; with any bounds, the solutions with representable delays", "why_tests_cant": "The graph is reached by unboundedly long histories over unboundedly many instants; tests fix a few small graphs.", "anchors": ["src/graph/propagation.rs: merge"]}
{"id": "C68", "title": "Order and batching of constraints do not matter", "statement": "Propagating constraints one by one in any order (when all are accepted), or all at once with extend, gives the same graph.", "quantifier": "all lists of constraints on existing instants without tick overflow, and all their permutations", "why_tests_cant": "n! orders times unbounded lists.", "anchors": ["src/graph/propagation.rs: propagate, extend"]}
{"id": "C69", "title": "Instant comparison is decided by the constraints", "statement": "On a minimal graph instant_cmp(i,j) is Some(Less) iff t_i<t_j in every solution, Greater iff >, Equal iff equal in every solution, None otherwise or out of range; are_distinct_instants iff t_i<>t_j by a strict order in every solution.", "quantifier": "all minimal graphs, all pairs", "why_tests_cant": "The graph is reached by unboundedly long histories over unboundedly many instants; tests fix a few small graphs.", "anchors": ["src/graph/storage.rs: instant_cmp, are_distinct_instants"]}
{"id": "C70", "title": "timespan and constraint views are consistent and antisymmetric", "statement": "timespan(j,i) = -timespan(i,j); constraint(i,j) is None iff an instant is out of range or the span is ]-oo,+oo[, otherwise has the bounds of timespan(i,j); between two distinct instants, equiv identifies exactly the constraints which say the same, in either direction.", "quantifier": "all graphs, all pairs", "why_tests_cant": "The graph is reached by unboundedly long histories over unboundedly many instants; tests fix a few small graphs.", "anchors": ["src/graph/storage.rs: timespan", "src/graph/constraints.rs: constraint, TimeGraphConstraint", "src/graph/mod.rs: TimeConstraint::equiv"]}
{"id": "C71", "title": "iter enumerates each constrained pair exactly once", "statement": "graph.iter() yields, for i<j, exactly the pairs with a constraint other than ]-oo,+oo[, each once, in lexicographic order, with the bounds of timespan(i,j), and terminates.", "quantifier": "all graphs of any size", "why_tests_cant": "The graph is reached by unboundedly long histories over unboundedly many instants; tests fix a few small graphs.", "anchors": ["src/graph/constraints.rs: TimeConstraintIter"]}
{"id": "C72", "title": "constraints_from and constraints_to enumerate every constraint of an instant", "statement": "constraints_from(i) terminates, yields each constrained pair (i,j), j<>i, exactly once with the right bounds, and nothing for an instant out of range; constraints_to(i) yields the same pairs reversed.", "quantifier": "all graphs, all instants", "why_tests_cant": "The graph is reached by unboundedly long histories over unboundedly many instants; tests fix a few small graphs.", "anchors": ["src/graph/constraints.rs: TimeConstraintFromIter, constraints_to"]}
{"id": "C73", "title": "Rebuilding a graph from its own constraints gives the same graph", "statement": "Extending an unconstrained graph of the same size with g.iter() yields the same constraints as g, for minimal g.", "quantifier": "all minimal graphs without tick overflow", "why_tests_cant": "The graph is reached by unboundedly long histories over unboundedly many instants; tests fix a few small graphs.", "anchors": ["src/graph/constraints.rs: iter, FromIterator", "src/graph/propagation.rs: extend"]}
{"id": "C74", "title": "reset, resize and shrink_to_fit touch only what they document", "statement": "reset keeps the size and removes every constraint; growing keeps all constraints; shrinking keeps exactly the constraints among remaining instants; shrink_to_fit removes only trailing unconstrained instants and no constraint.", "quantifier": "all graphs which have not failed fatally (C66), all sizes up to 65535", "why_tests_cant": "The graph is reached by unboundedly long histories over unboundedly many instants; tests fix a few small graphs.", "anchors": ["src/graph/storage.rs: reset, resize, shrink_to_fit"]}
{"id": "C75", "title": "retain reports Unchanged/Recovered truthfully and leaves the schedule untouched then", "statement": "retain(i,w) returns Ok(Unchanged) iff the current slots of i are inside w, Err(Recovered) iff they are disjoint from w, in both cases without changing anything; it panics for an unknown instant.", "quantifier": "all schedules, instants and windows", "why_tests_cant": "The graph is reached by unboundedly long histories over unboundedly many instants; tests fix a few small graphs.", "anchors": ["src/graph/scheduler.rs: retain"]}
{"id": "C76", "title": "The scheduler never discards a feasible date", "statement": "After retain(i,w) or remove(i,w) returning Ok, every assignment that satisfies the graph, was within the previous slots, and puts i inside w (outside for remove) is still within the slots of every instant.", "quantifier": "all graphs, canonical schedules, windows and assignments without tick overflow", "why_tests_cant": "The graph is reached by unboundedly long histories over unboundedly many instants; tests fix a few small graphs.", "anchors": ["src/graph/scheduler.rs: retain, propagate_scheduling"]}
{"id": "C77", "title": "The scheduler keeps no date outside the requested window or unsupported by instant i", "statement": "After Ok(Propagated) every slot date was there before, the dates of i are in w, and each date of each other instant j is reachable from some date of i through the constraint between i and j.", "quantifier": "all graphs, canonical schedules, windows", "why_tests_cant": "The graph is reached by unboundedly long histories over unboundedly many instants; tests fix a few small graphs.", "anchors": ["src/graph/scheduler.rs: retain, propagate_scheduling"]}
{"id": "C78", "title": "With convex windows every remaining date is part of a full solution", "statement": "Starting from new(graph) on a minimal graph and applying retain with interval windows, after every Ok each date left for any instant extends to an assignment of all instants satisfying all constraints and all slots.", "quantifier": "all histories of retain with intervals on minimal graphs without tick overflow", "why_tests_cant": "The graph is reached by unboundedly long histories over unboundedly many instants; tests fix a few small graphs.", "anchors": ["src/graph/scheduler.rs: retain, propagate_scheduling, new"]}
{"id": "C79", "title": "set_deadline and set_startline bound every instant and never panic on consistent schedules", "statement": "On a schedule reached with convex windows over a minimal graph, set_deadline(d) returns Err(Recovered) iff some instant cannot be scheduled by d, otherwise Ok and afterwards no slot contains a date after d; it does not panic. Symmetrically for set_startline.", "quantifier": "all histories of interval windows, all deadlines", "why_tests_cant": "The graph is reached by unboundedly long histories over unboundedly many instants; tests fix a few small graphs.", "anchors": ["src/graph/scheduler.rs: set_deadline, set_startline"]}
{"id": "C80", "title": "earliest_ending and latest_beginning are the documented extrema", "statement": "latest_beginning is the minimum of the upper bounds and earliest_ending the maximum of the lower bounds of all slots; both panic exactly when there is no instant.", "quantifier": "all schedules", "why_tests_cant": "The graph is reached by unboundedly long histories over unboundedly many instants; tests fix a few small graphs.", "anchors": ["src/graph/scheduler.rs: latest_beginning, earliest_ending"]}
{"id": "C81", "title": "Displayed durations denote the duration to the nanosecond", "statement": "The units printed by Display for a finite non-negative duration add up to its whole seconds plus its sub-second nanoseconds, each unit count is below the next larger unit, and negative durations are printed as '- ' followed by the opposite.", "quantifier": "all finite durations", "why_tests_cant": "The value space has 2^64 (pairs: 2^128) members; the failures sit on saturation and infinity boundaries a sample misses.", "anchors": ["src/wins/format.rs: format_duration, Display for TimeValue"]}
{"id": "C82", "title": "Debug output of windows is faithful", "statement": "Distinct durations, timestamps and canonical sets of them have distinct Debug strings, and the Debug form shows the bounds with infinities as ]-oo / +oo[.", "quantifier": "all canonical sets", "why_tests_cant": "Sets have unboundedly many intervals in unboundedly many relative positions; a test fixes one arrangement.", "anchors": ["src/wins/format.rs: Debug for TimeValue, TimeInterval, TimeSet"]}
{"id": "C83", "title": "Compound assignment agrees with the plain operator on intervals and sets", "statement": "For intervals and sets, x += d and x -= d (d a duration or a span) leave in x what x + d, x - d return, and do not panic when those do not.", "quantifier": "all well-formed intervals and canonical sets, all durations and spans without overflow", "why_tests_cant": "Sets have unboundedly many intervals in unboundedly many relative positions; a test fixes one arrangement.", "anchors": ["src/ops/transl.rs: AddAssign, SubAssign"]}
{"id": "C84", "title": "size_hint of the graph iterators is safe and bounds the number of remaining constraints", "statement": "At any point of the iteration, size_hint of iter() and constraints_from() does not overflow and its upper bound is at least the number of constraints still to come.", "quantifier": "all graphs, all positions in the iteration", "why_tests_cant": "The graph is reached by unboundedly long histories over unboundedly many instants; tests fix a few small graphs.", "anchors": ["src/graph/constraints.rs: size_hint of TimeConstraintIter, TimeConstraintFromIter"]}
{"id": "C85", "title": "Lazy translation and scaling iterators yield every interval", "statement": "i.translation(d) and i.scaling(n) yield the images of all the intervals of i, in order, and nothing else.", "quantifier": "all canonical sets, all durations and factors", "why_tests_cant": "Sets have unboundedly many intervals in unboundedly many relative positions; a test fixes one arrangement.", "anchors": ["src/iter/transl.rs: TimeValueTranslIter", "src/iter/scaling.rs: TimeValueScaleIter"]}
{"id": "C86", "title": "increment() is the signed step of a sequence", "statement": "increment() equals the difference between an element and the previous one: period() for a forward sequence, -period() for a backward one.", "quantifier": "all sequences", "why_tests_cant": "The sequence has up to 2^63 elements; tests look at a few.", "anchors": ["src/seq/forward.rs: increment, period", "src/seq/backward.rs: increment, period"]}
{"id": "C87", "title": "Reversing a sequence goes back over the elements already yielded", "statement": "After any number of calls to next(), reverse() gives a sequence of the same period whose elements are the ones before the last yielded one, in the opposite order; reversing twice changes nothing.", "quantifier": "all sequences at all positions", "why_tests_cant": "The sequence has up to 2^63 elements; tests look at a few.", "anchors": ["src/seq/forward.rs: reverse", "src/seq/backward.rs: reverse"]}
{"id": "C88", "title": "last() is the last element of a sequence", "statement": "last() returns the greatest (smallest for a backward sequence) representable element still to come, None if there is none.", "quantifier": "all sequences at all positions", "why_tests_cant": "The sequence has up to 2^63 elements; tests look at a few.", "anchors": ["src/seq/forward.rs: last", "src/seq/backward.rs: last"]}
{"id": "C89", "title": "backward_periods yields exactly the multiples of the period from the start down", "statement": "t.backward_periods(p) yields, in descending order, all representable multiples of p that are <= t.", "quantifier": "all finite starts, all positive periods", "why_tests_cant": "The sequence has up to 2^63 elements; tests look at a few.", "anchors": ["src/seq/mod.rs: backward_periods"]}
{"id": "C90", "title": "set_deadline and set_startline return whatever windows were used before", "statement": "After any history of retain and remove with intervals, dates or sets, set_deadline(d) and set_startline(d) return a result instead of panicking; if Ok, no slot has a date beyond d and no assignment within the slots and the deadline is lost; if Err(Recovered), nothing changed and no such assignment exists.", "quantifier": "all histories of retain and remove with any windows, all finite dates d", "why_tests_cant": "The schedule is reached by unboundedly long histories over unboundedly many instants; tests use a few intervals.", "anchors": ["src/graph/scheduler.rs: set_deadline, set_startline, retain, remove"]}
{"id": "C91", "title": "Displayed windows show their bounds, and format_timeset agrees with Display", "statement": "Display of a non-empty interval or set of durations does not panic and is made of the texts of the finite bounds, in brackets open at infinities, the intervals being separated by U; format_timeset gives the same text as Display, and format_timepoint the same as Display on durations.", "quantifier": "all canonical sets of durations, all durations", "why_tests_cant": "Sets have unboundedly many intervals in unboundedly many relative positions; a test fixes one arrangement.", "anchors": ["src/wins/format.rs: Display for TimeInterval, Display for TimeSet, format_timeset, format_timeslot, format_timepoint"]}
{"id": "C92", "title": "Integers of every type convert to durations exactly or saturate", "statement": "x.ticks(), x.secs(), ..., x.years() on an integer of any type (i8 to i128, u8 to u128, isize, usize) is exactly x units, +oo if this is too large and -oo if it is too small; x.millis(), x.micros(), x.nanos() the same, truncated towards zero to a tick.", "quantifier": "all integers of all the integer types", "why_tests_cant": "The value space has up to 2^128 members; the failures sit on saturation boundaries a sample misses.", "anchors": ["src/wins/convert.rs: convert_safely!, TimeConversion"]}
{"id": "C93", "title": "Count, iteration and envelope of a convex window describe its dates", "statement": "For an interval, a date or a range: convex_count() is 0 if it has no date and 1 otherwise; iter() yields that many intervals, holding exactly its dates; convex_envelope() has exactly its dates; is_all() is true iff it has every date.", "quantifier": "all intervals, dates and ranges, empty ones included", "why_tests_cant": "The value space has 2^64 (pairs: 2^128) members; the failures sit on empty and infinite windows a sample misses.", "anchors": ["src/wins/mod.rs: TimeWindow for TimeConvex, is_all, convex_envelope", "src/ops/range.rs: TimeBounds"]}
{"id": "C94", "title": "Timestamps and calendar dates convert into each other faithfully", "statement": "Converting a timestamp to a chrono date (to_datetime, NaiveDateTime::from) never panics and gives a date within a nanosecond of the timestamp, and keeps the order; converting a chrono date to a timestamp gives a timestamp within a tick and keeps the order; the two conversions in a row give the timestamp back, or its neighbour towards zero, and a date back within a nanosecond.", "quantifier": "all timestamps, all chrono dates", "why_tests_cant": "The value space has 2^64 timestamps and more dates; tests use a few contemporary dates.", "anchors": ["src/wins/timestamp.rs: From<Timestamp> for NaiveDateTime, From<NaiveDateTime> for Timestamp, From<DateTime> for Timestamp, to_datetime"]}
{"id": "C95", "title": "now() and elapsed() follow the clock", "statement": "Timestamp::now() is the timestamp of the time of the system clock, within a tick; t.elapsed() is the duration from t to the clock, non-negative iff t is not in the future; neither panics.", "quantifier": "all readings of the clock, all timestamps", "why_tests_cant": "The behaviour depends on the date at which the program runs; tests only run today.", "anchors": ["src/wins/timestamp.rs: now, elapsed", "src/wins/timevalue.rs: From<std::time::Duration> for TimeValue"]}
{"id": "C96", "title": "Displayed timestamps show their date", "statement": "Display of a timestamp never panics and is the text of its chrono date from 1970 on, the text of the duration up to 1970 followed by 'before 1970-01-01 00:00:00 UTC' before, -oo or +oo for the infinities; Display of a window of timestamps is made of the texts of its bounds, in brackets open at infinities, and format_timeset is the same with every date written in the given format.", "quantifier": "all timestamps, all non-empty canonical sets of timestamps (the empty set: C91)", "why_tests_cant": "The value space has 2^64 (pairs: 2^128) members; the failures sit on extreme dates a sample misses.", "anchors": ["src/wins/format.rs: Display for Timestamp, format_timestamp, format_timeset", "src/wins/timestamp.rs: to_datetime"]}
{"id": "C97", "title": "Sets are built with exactly the dates asked for", "statement": "TimeSet::convex(a,b), all(), empty(), singleton(t) and TimeSet::from an interval, a date or a range are in canonical form (sorted, apart, no empty interval) and hold exactly the dates asked for; they are empty iff there is none.", "quantifier": "all bounds (infinities included), all intervals, dates and ranges", "why_tests_cant": "Sets have unboundedly many intervals in unboundedly many relative positions; a test fixes one arrangement.", "anchors": ["src/wins/timeset.rs: all, convex, singleton, empty, From<TW: TimeConvex> for TimeSet"]}
{"id": "C98", "title": "Floating-point scaling rounds once, exactly where it can, and keeps the order", "statement": "t * f, with f an f32 or f64, is the IEEE 754 product truncated to a tick: exact if f, t and the product are exactly representable, within a relative error of two (for *) or three (for /) roundings plus one tick otherwise; it keeps the order for a non-negative f, reverses it for a negative one, and is odd; a larger factor gives a larger product of a positive duration; an infinite duration times a positive factor stays infinite.", "quantifier": "all durations, all f32 and f64 factors (subnormals, infinities and NaN included)", "why_tests_cant": "There are 2^64 durations and 2^64 floats; rounding failures sit on rare pairs.", "anchors": ["src/ops/scaling.rs: timevalscalingfloat!"]}
{"id": "C99", "title": "Intervals and sets scaled by a float hold the scaled durations and stay canonical", "statement": "An interval times or divided by an f32 or f64 is the smallest interval holding the products (quotients) of its durations and panics only if all of them overflow on the same side; a set scaled the same way holds exactly the points between two products from one interval, is in canonical form, and * and *= (/ and /=) agree.", "quantifier": "all intervals, all canonical sets, all f32 and f64 factors (infinities and NaN included)", "why_tests_cant": "Sets have unboundedly many intervals in unboundedly many relative positions; a test fixes one arrangement.", "anchors": ["src/ops/scaling.rs: timespanscalingfloat!, timespansscalefloat!, check_joined_inners"]}
{"id": "C100", "title": "The debug text of a graph or constraint determines it", "statement": "{:?} of a time graph never panics and is a matrix with, at line i and column j, the lower bound of timespan((i,j)) on at least 7 characters; two graphs with the same text have the same instants and the same time spans everywhere. Two constraints with the same {:?} have the same instants and time span.", "quantifier": "all graphs, all constraints with a non-empty time span", "why_tests_cant": "There are infinitely many graphs; a missing separator makes two of them look the same.", "anchors": ["src/graph/storage.rs: Debug for TimeGraph", "src/graph/constraints.rs: Debug for TimeGraphConstraint"]}
{"id": "C101", "title": "The displayed text of a graph lists its constraints", "statement": "{} of a consistent time graph never panics and shows the number of instants, one line for each constraint of iter(), in its order, and their number; two graphs with the same text have the same instants and time spans that differ by at most one tick.", "quantifier": "all graphs with a solution", "why_tests_cant": "There are infinitely many graphs.", "anchors": ["src/graph/storage.rs: Display for TimeGraph", "src/graph/constraints.rs: Display for TimeGraphConstraint"]}
{"id": "C102", "title": "The texts of a scheduler show the schedule of each instant", "statement": "{:?}, {} and format_timeset(valid format) of a scheduler never panic and have one line per instant, in order, with the text of its schedule; two schedulers with the same {:?} have the same schedules; format_timeset has the same form as {}.", "quantifier": "all schedulers with canonical schedules, and all schedulers reached from a new one by any history of requests, accepted or refused", "why_tests_cant": "There are infinitely many schedules.", "anchors": ["src/graph/scheduler.rs: Debug, Display and TimeSetFormat for TimeScheduler"]}
{"id": "C103", "title": "Collecting constraints into a graph keeps exactly their solutions", "statement": "Collecting an iterator of constraints into a TimeGraph, and extending a TimeGraph with one through the Extend trait, panics iff no assignment of dates satisfies all the constraints (and the graph extended); otherwise the graph is minimal and its solutions are exactly the assignments satisfying them.", "quantifier": "all graphs, all lists of constraints with bounds at most W, 3*n*W < 2^63-1", "why_tests_cant": "There are infinitely many lists of constraints; a contradiction may need all of them.", "anchors": ["src/graph/constraints.rs: FromIterator<TimeGraphConstraint> for TimeGraph, Extend<TimeGraphConstraint> for TimeGraph"]}
{"id": "C104", "title": "Window iterators keep their contract when chained", "statement": "A pipeline of window iterators, started from sets and windows (intervals, dates, ranges) and made of union, intersection, complementary, exclusion, translation, scaling and the adaptors of the standard library which the crate declares to be window iterators (filter, skip, take, skip_while, take_while, step_by, peekable, inspect), yields non-empty intervals, sorted and separated by at least one date, so that the next operation is right; a pipeline of set operations has exactly the dates it is meant to have.", "quantifier": "all pipelines of any depth over canonical sets", "why_tests_cant": "There are infinitely many pipelines; a broken contract only shows in the following operation.", "anchors": ["src/iter/mod.rs: TimeConvexIterator", "src/iter/scaling.rs: TimeValueScaleIter", "src/iter/transl.rs: TimeValueTranslIter", "src/iter/compl.rs: IterComplementary"]}
{"id": "C105", "title": "Sets obey the laws of set algebra", "statement": "As values (==): a & b == b & a, (a & b) & c == a & (b & c), a & a == a, a & all == a, a & empty == empty; a | a == a, a | empty == a, a | all == all, a | b == b | a, (a | b) | c == a | (b | c); (a & b) | a == a & (a | b) == a; a & (b | c) == (a & b) | (a & c); !(a | b) == !a & !b, !(a & b) == !a | !b; a | !a == all, a & !a == empty.", "quantifier": "all canonical sets", "why_tests_cant": "Sets have unboundedly many intervals in unboundedly many relative positions; a test fixes one arrangement.", "anchors": ["src/ops/union.rs: BitOr for TimeSet", "src/ops/intersect.rs: BitAnd for TimeSet", "src/ops/compl.rs: Not for TimeSet"]}
{"id": "C106", "title": "Large graphs behave the same in release builds", "statement": "A graph of any number of instants can be created, enlarged and read in a release build: it never touches memory outside the graph, distinct pairs of instants have distinct bounds, and the answers are those of a debug build whenever that one answers.", "quantifier": "all graphs, all numbers of instants (u32), all pairs of instants", "why_tests_cant": "The failures only appear from 65536 instants on, in release builds, where a test would need 32 GB.", "anchors": ["src/graph/storage.rs: with_size, resize, lower, lower_mut, timespan"]}
{"id": "C107", "title": "Rounding gives the same answer in release and debug builds", "statement": "floor(p) and ceil(p) in a release build return the multiple of p just before (after) the date; they never silently return another date.", "quantifier": "all finite dates, all positive periods", "why_tests_cant": "The value space has 2^128 pairs; the failures sit on the extreme dates, in one build profile only.", "anchors": ["src/wins/timevalue.rs: floor, ceil"]}
{"id": "C108", "title": "shrink_to(n) changes nothing the user can read", "statement": "shrink_to(n) only frees memory: it returns, for any n, and the graph has the same instants and the same time spans.", "quantifier": "all graphs, all n (u32)", "why_tests_cant": "There are 2^32 arguments; the documented no-op for large ones fails from 65536 on.", "anchors": ["src/graph/storage.rs: shrink_to"]}
{"id": "C109", "title": "A translation of an interval which overflows keeps the representable dates", "statement": "i + span, i - span, i + d, i - d and d - i, for any operands, hold exactly the representable dates which are sums (differences): in a release build the result is the empty interval if there is none; a debug build panics in that case only. += and -= agree with them, and (i + d) - d is i.", "quantifier": "all well-formed intervals and spans, all finite durations", "why_tests_cant": "The value space has 2^256 pairs of intervals; overflows sit at its edges and depend on the build profile.", "anchors": ["src/ops/transl.rs: Add, Sub, AddAssign, SubAssign for TimeInterval"]}
{"id": "C110", "title": "A translation of a set which overflows keeps the representable dates and the canonical form", "statement": "s + d, s - d, spans + timestamp, spans - timestamp, timestamp - spans, s + span, s - span, s + spans and the iterator s.translation(d) of a release build yield the canonical set of the representable dates which are sums (differences); a debug build panics exactly when some interval overflows as a whole.", "quantifier": "all canonical sets, all spans, all finite durations", "why_tests_cant": "Sets have unboundedly many intervals in unboundedly many relative positions; a test fixes one arrangement.", "anchors": ["src/ops/transl.rs: Add and Sub for TimeSet", "src/iter/transl.rs: TimeValueTranslIter"]}
{"id": "C111", "title": "Signs survive saturation", "statement": "The sign predicates are the comparisons with zero, exactly one of is_strictly_negative, is_zero and is_strictly_positive holds and negation swaps them; a sum, a difference and an integer multiple have the sign of the exact result however large the operands, so a - b is strictly positive iff a > b; only opposite infinities (equal ones for a difference) panic.", "quantifier": "all durations and timestamps, infinities included, all integers of at most 64 bits", "why_tests_cant": "The value space has 2^128 pairs; a wrapped sum changes sign only near its edges.", "anchors": ["src/wins/timevalue.rs: is_zero, is_positive, is_negative, is_strictly_positive, is_strictly_negative, Add, Sub", "src/wins/timestamp.rs: Sub", "src/ops/scaling.rs: Mul for TimeValue"]}
{"id": "C112", "title": "Comparisons and hashes of windows obey the contracts of Eq, Hash and PartialOrd", "statement": "== is reflexive, symmetric and transitive on intervals, on sets and between the two; equal values have equal hashes, and sets with the same points too; a == b iff partial_cmp is Equal, a < b iff it is Less, a > b iff it is Greater, <= and >= accordingly; a < b iff b > a; < and <= are transitive.", "quantifier": "all triples of intervals and canonical sets, empty ones included", "why_tests_cant": "Sets have unboundedly many intervals in unboundedly many relative positions; a test fixes one arrangement.", "anchors": ["src/relns/ordering.rs: PartialEq and PartialOrd for TimeInterval and TimeSet", "src/wins/timeinterval.rs: derive(Hash)", "src/wins/timeset.rs: derive(Hash)"]}
{"id": "C113", "title": "Serialized values read back equal, and reading never builds an invalid value", "statement": "With the feature serde, deserializing what was serialized gives the same duration, timestamp, interval or set, and different values are written differently; deserializing anything else either fails or gives a value with the documented invariants (legal ticks, ordered bounds, sorted disjoint intervals).", "quantifier": "all values, all documents of the right shape", "why_tests_cant": "There are infinitely many documents; untrusted input is precisely what no test lists.", "anchors": ["src/wins/timevalue.rs: derive(Serialize, Deserialize)", "src/wins/timestamp.rs: derive(Serialize, Deserialize)", "src/wins/timeinterval.rs: derive(Serialize, Deserialize)", "src/wins/timeset.rs: derive(Serialize, Deserialize)"]}
{"id": "C114", "title": "A graph means exactly what its whole history says", "statement": "After any sequence of new, propagate, extend, merge, growth, shrink_to_fit and reset, the representable assignments which fit the time spans of the graph are exactly those which satisfy everything accepted since the last reset: nothing is forgotten, weakened or invented, rejected constraints leave no trace, and merged graphs bring exactly their own history. In any such state the next constraint, batch or merge is accepted, without a panic, if it is compatible with that history, and what is refused is incompatible with it.", "quantifier": "all finite histories over up to 65535 instants, with constraints between distinct instants (C62) and any legal bounds, infinite and near the limits of i64 included; after a fatal failure (C66) the next step is reset; shrink_to_fit while a solution exists", "why_tests_cant": "Histories are unbounded sequences of calls, and each call reuses memory left by the previous ones.", "anchors": ["src/graph/storage.rs: with_size, resize, reset, shrink_to_fit", "src/graph/propagation.rs: propagate, extend, merge"]}
{"id": "C115", "title": "A schedule means exactly what its whole history says", "statement": "After any sequence of retain, remove, set_deadline and set_startline, the assignments of finite dates which satisfy the graph and fit the slots are exactly those which satisfy the graph and every accepted request. A request compatible with them is accepted; a refused one changes nothing and is incompatible; only an incompatible deadline or startline may panic.", "quantifier": "all graphs without an empty time span, all histories with intervals, dates, ranges and sets, with any legal bounds, infinite and near the limits of i64 included (set_deadline(-oo) and set_startline(+oo) apart, C79); release builds, and debug builds unless a debug assertion fails", "why_tests_cant": "Histories are unbounded, each request propagates to every instant, and sums saturate only near the edges of i64.", "anchors": ["src/graph/scheduler.rs: new, scheduling, retain, remove, set_deadline, set_startline, propagate_scheduling", "src/ops/transl.rs: Add for TimeSet"]}
{"id": "C116", "title": "skip and step_by on a sequence yield the elements they name", "statement": "seq.skip(n) yields the elements of seq from the n-th on, and seq.step_by(k) those of index 0, k, 2k, ..., forward and backward, as for any iterator.", "quantifier": "all forward and backward sequences, all n and k > 0, all elements", "why_tests_cant": "Sequences run to the end of time; the standard adaptors call nth, whose contract tests of next alone never meet.", "anchors": ["src/seq/forward.rs: next, nth, len", "src/seq/backward.rs: next, nth, len"]}
{"id": "C117", "title": "Pipelines of window iterators are lazy, and every iteration ends", "statement": "Calling next repeatedly on a pipeline of window iterators (union, intersection, complementary, exclusion, translation, scaling, filter, skip, take, skip_while, take_while, step_by, peekable, inspect), each inner iterator being advanced only when it is asked, returns the items which the complete evaluation gives, and panics only if that one does; every call returns or panics, and every iteration ends with None or a panic; take(k) of a pipeline whose first k items exist yields them, whatever would panic afterwards; a translation panics no earlier than at the interval which overflows.", "quantifier": "all pipelines of any depth, all states of a pipeline, all sequences of calls", "why_tests_cant": "There are infinitely many pipelines and states; an endless loop or an early panic depends on how the inner iterators interleave.", "anchors": ["src/iter/union.rs: IterUnion::next", "src/iter/intersect.rs: IterIntersection::next", "src/iter/compl.rs: IterComplementary::next", "src/iter/transl.rs: TimeValueTranslIter::next", "src/iter/scaling.rs: TimeValueScaleIter::next", "src/iter/mod.rs: TimeConvexIterator"]}
{"id": "C118", "title": "Release and debug builds of a graph do the same", "statement": "Any sequence of operations (propagate, extend, merge, resize, reset, shrink_to_fit) on a graph gives in a release build the same answers, the same graph and the same panics as in a debug build, unless the debug build panics on an arithmetic overflow; with at most 65535 instants this never happens, and the queries and iterators agree as well.", "quantifier": "all graphs, constraints, batches, merged graphs and histories of operations of any length", "why_tests_cant": "The two builds compile different arithmetic; a test suite runs one of them, on a few graphs.", "anchors": ["src/graph/storage.rs: lower, lower_mut, resize, shrink_to_fit", "src/graph/propagation.rs: propagate, extend, merge, global_propagation", "src/graph/constraints.rs: TimeConstraintIter, TimeConstraintFromIter"]}
{"id": "C119", "title": "Debug assertions only detect empty results, they never change one", "statement": "Every translation of an interval or a set, every chain or pipeline of window iterators, every request to a scheduler and every program which builds a graph and schedules it gives in a release build the same values, answers and panics as in a debug build, unless the debug build stops on a debug assertion; and the translation of an interval (of a set by a duration or a timestamp) stops there exactly when the result of the release build is (has) an empty interval.", "quantifier": "all intervals, sets, offsets, spans, chains and states of pipelines, all schedules over graphs of at most 65535 instants, all histories of operations and requests", "why_tests_cant": "A test suite runs one build, on a few values; which assertions fire depends on saturation near the limits of i64.", "anchors": ["src/ops/transl.rs: Add and Sub", "src/iter/transl.rs: TimeValueTranslIter::next", "src/graph/scheduler.rs: retain, remove, set_deadline, set_startline, propagate_scheduling"]}
{"id": "C120", "title": "Moving the origin of time changes nothing but the dates", "statement": "Adding the same number of ticks d to every date of the arguments (infinities staying where they are) adds d to every date of the result and changes nothing else: s + d has the intervals of s, d later; union, intersection, complement, truncations, containment and overlap of windows commute with it; and the same requests made d ticks later to a scheduler get the same answers (or panic the same way) and leave the same slots, d ticks later, in debug and release builds. (a & b) + d is (a + d) & (b + d) exactly when a and b do not touch.", "quantifier": "all sets, windows of all types, dates and offsets d, all graphs and all sequences of requests, as long as the dates stay representable (dates at most W, time spans of the graph at most B, W + 3 + n*B + |d| < 2^63 - 1 for n propagations)", "why_tests_cant": "Tests use one origin; a comparison with a fixed constant, a sentinel confused with a date or an early saturation shows up only for some offsets.", "anchors": ["src/ops/union.rs", "src/ops/intersect.rs", "src/ops/compl.rs", "src/wins/timeset.rs: truncate_before, truncate_after", "src/relns/contain.rs", "src/relns/overlap.rs", "src/ops/transl.rs", "src/graph/scheduler.rs"]}
{"id": "C121", "title": "Names of instants, direction of constraints and direction of time do not matter", "statement": "On a graph of n instants, renaming the instants by any permutation, giving any of the constraints from target to source with the opposite bounds, or replacing all constraints by the opposite delays, gives the same answer to each call of propagate (refused constraints included) and the same delays: under the new names, unchanged, or of opposite sign respectively. The same holds for a batch given to extend.", "quantifier": "all permutations of the instants, all lists of constraints, all choices of the constraints to turn round, up to 65535 instants, bounds of at most W ticks with 3*n*W < 2^63 - 1", "why_tests_cant": "The stored triangle, the choice of the stored orientation and the loops depend on the numbers of the instants; tests use a few numberings and orientations.", "anchors": ["src/graph/mod.rs", "src/graph/storage.rs: lower, lower_mut", "src/graph/propagation.rs: propagate, extend", "src/graph/constraints.rs: TimeConstraint"]}
{"id": "C122", "title": "Windows seen in a mirror: the operations do not depend on the direction of time", "statement": "Taking every date to its opposite (-s) commutes with the operations: (-a) & (-b) is -(a & b), !(-a) is -(!a), truncating -a after -c is the mirror image of truncating a before c with the same answer (and conversely), containment and overlap are unchanged, bounds are exchanged, -(s + d) is -s - d with the same panics; and (-a) | (-b) is -(a | b) - for sets exactly when neither union loses a date.", "quantifier": "all canonical sets, non-empty intervals, cuts, offsets and spans", "why_tests_cant": "Every operation has two halves written separately (lower/upper, before/after, first/last); a test of one half says nothing about the other, and infinities are at both ends.", "anchors": ["src/wins/timeset.rs: Neg", "src/wins/timeinterval.rs: Neg", "src/ops/union.rs", "src/ops/intersect.rs", "src/ops/compl.rs", "src/ops/transl.rs", "src/wins/timeset.rs: truncate_before, truncate_after", "src/relns/contain.rs", "src/relns/overlap.rs"]}
{"id": "C123", "title": "Schedules seen in a mirror: the direction of time does not matter to a scheduler", "statement": "Over the graph with the opposite delays, the opposite requests (a deadline t becomes a startline -t, a restriction to a..=b becomes one to -b..=-a, what is removed is replaced by its mirror image) get the same answers, or panic the same way, and leave the opposite slots; latest_beginning and earliest_ending are exchanged, with the opposite sign; from the constraints given to the graph to the slots of the schedule, in debug and release builds.", "quantifier": "all graphs without an empty time span and their mirror images, all sequences of proper requests of all kinds, with any legal bounds, near the limits of i64 included", "why_tests_cant": "set_deadline and set_startline, truncations and bounds are written twice, once for each direction; a test of one says nothing about the other, and requests interact through propagation.", "anchors": ["src/graph/scheduler.rs: retain, remove, set_deadline, set_startline, latest_beginning, earliest_ending, propagate_scheduling", "src/wins/timeset.rs: truncate_before, truncate_after", "src/graph/constraints.rs: TimeConstraintFromIter"]}
{"id": "C124", "title": "Units and origins of time do not matter to a graph", "statement": "On a graph of n instants, writing the date t of each instant i as m*t + p(i) (other units: one tick becomes m ticks; another origin for each instant), with the bounds of the constraints from i to j written accordingly (m*x + p(j) - p(i), infinities unchanged), gives the same answer to each call of propagate, refused constraints included, and the same delays, written accordingly. The same holds for a batch given to extend.", "quantifier": "all factors m >= 1, all origins p, all lists of constraints, up to 65535 instants, bounds of at most W ticks with 3*n*(m*W + P) < 2^63 - 1 where P bounds the differences of the p(i)", "why_tests_cant": "A comparison with a constant other than zero, a rounding or an early saturation shows up only for some units; tests use small numbers, real programs ticks of a nanosecond or less.", "anchors": ["src/graph/propagation.rs: propagate, extend", "src/graph/mod.rs: timespan", "src/time/timevalue.rs"]}
{"id": "C125", "title": "Neither the order nor the repetition of requests to a scheduler matters", "statement": "Requests (retain, set_deadline, set_startline) which can be satisfied together with the graph are all accepted, in whatever order they are made and however often, and leave the same slots; two histories whose accepted requests have the same solutions leave the same scheduler; a request which already follows from the graph and the accepted ones, in particular one of those, is answered Unchanged and changes nothing, and no other request is answered Unchanged.", "quantifier": "all minimal graphs, all lists of requests with windows of all types, all orders and repetitions, bounds of at most W ticks and time spans of at most B with W + 2*B < 2^63 - 1", "why_tests_cant": "There are n! orders of n requests, and each request propagates to all the instants; tests make a few requests in one order.", "anchors": ["src/graph/scheduler.rs: retain, set_deadline, set_startline, propagate_scheduling", "src/relns/contain.rs: contains", "src/ops/intersect.rs"]}
{"id": "C126", "title": "Choosing dates one by one never needs backtracking", "statement": "After any history of requests to a scheduler, choose a date in the slots left for some instant, request it, choose a date in the slots left for another one, and so on in any order: every choice is accepted, every instant keeps a date after each of them, the chosen instants keep exactly the chosen dates, and once all the instants are chosen their dates satisfy the graph and all the accepted requests.", "quantifier": "all minimal graphs, all histories of requests, all orders of the instants and all choices of dates, bounds and dates of at most W ticks and time spans of at most B with W + 2*B < 2^63 - 1", "why_tests_cant": "The number of choices is unbounded and each depends on the propagation of the former ones; a slot date which no solution uses shows only when the others are chosen.", "anchors": ["src/graph/scheduler.rs: retain, scheduling, propagate_scheduling", "src/graph/constraints.rs: TimeConstraintFromIter"]}
{"id": "C127", "title": "An answer is final: once refused, always refused; once accepted, always implied", "statement": "A request refused by a scheduler is refused, and changes nothing, whenever it is made again, whatever has been requested meanwhile; a request which has been accepted is answered Unchanged, and changes nothing, whenever it is made again; as long as each instant has a date left. In the same way a constraint refused by propagate is refused whenever it is given again, and an accepted one is answered Unchanged.", "quantifier": "all graphs without an empty time span, all histories of requests of all kinds before and after, in debug and release builds; for graphs all histories of constraints, up to 65535 instants and bounds of at most W ticks with 3*n*W < 2^63 - 1", "why_tests_cant": "The histories between the two requests are unbounded; tests repeat a request at once or not at all.", "anchors": ["src/graph/scheduler.rs: retain, remove, set_deadline, set_startline, propagate_scheduling", "src/graph/propagation.rs: propagate", "src/relns/contain.rs", "src/relns/overlap.rs", "src/ops/intersect.rs"]}
{"id": "C128", "title": "Independent parts of a plan do not interfere", "statement": "If each constraint given to a graph is between two instants of one part of the plan, or between two instants of the rest, then the constraints of the part get the same answers and give the same delays as if the others had not been given, and nothing is announced about the delays between the part and the rest. On such a graph the requests about the part get the same answers from a scheduler and leave the same slots for it as if the requests about the rest had not been made.", "quantifier": "all parts, all lists of constraints (refused ones included) up to 65535 instants, bounds of at most W ticks with 3*n*W < 2^63 - 1; all sequences of requests with windows of all types, in debug and release builds", "why_tests_cant": "Both propagations run through all the instants, related or not; what leaks from one part to the other depends on the numbers of the instants and on saturation near the infinities.", "anchors": ["src/graph/propagation.rs: propagate", "src/graph/constraints.rs: TimeConstraintFromIter", "src/graph/scheduler.rs: retain, remove, propagate_scheduling", "src/ops/transl.rs"]}
{"id": "C129", "title": "The way a graph has been built does not matter", "statement": "Two graphs built by different programs (constraints one by one, in batches, by merging other graphs, after rejections, resets, growth or shrinking, in any order) announce the same time span between any two instants if and only if the constraints they have accepted have the same solutions. They then give the same answers to the next constraint between instants of both, the same answers to the next batch, reject the same merges, and keep announcing the same time spans; and schedulers created on them, if they have the same number of instants, answer alike to every sequence of requests and leave the same dates.", "quantifier": "all pairs of histories of single constraints, batches, merges, resets, growth and shrinking, of any length, on up to 65535 instants, with bounds which rule out saturation; all next calls; all sequences of requests to schedulers, in debug and release builds", "why_tests_cant": "Tests compare a graph with expected values after one program; that no other program with the same meaning leads elsewhere ranges over all pairs of histories.", "anchors": ["src/graph/propagation.rs: TimeGraph::propagate, TimeGraph::extend, TimeGraph::merge", "src/graph/storage.rs: TimeGraph::resize, TimeGraph::reset, TimeGraph::shrink_to_fit, TimeGraph::timespan", "src/graph/scheduler.rs: TimeScheduler::new, TimeScheduler::retain"]}
{"id": "C130", "title": "The earliest and the latest plans exist", "statement": "After any history of requests to a scheduler, earliest_ending is the date by which the shortest plan ends: for every date d, some assignment which satisfies the graph and the accepted requests has no date after d if and only if earliest_ending is not after d, and set_deadline(d) is refused otherwise; in the same way latest_beginning is the date at which the latest plan begins, and decides set_startline. The first possible dates of all the instants, if they have one, are a plan together, and so are the last possible ones; seen from any instant of a graph, the shortest delays to all the instants are a solution together, and so are the longest ones.", "quantifier": "all minimal graphs, all histories of requests, all dates d; bounds of at most W ticks and time spans of at most B with W + 2*B < 2^63 - 1", "why_tests_cant": "Each slot is computed on its own; that the extreme dates of all the instants are compatible, and that no plan is better, is a statement about all the plans after all the histories.", "anchors": ["src/graph/scheduler.rs: earliest_ending, latest_beginning, set_deadline, set_startline, retain", "src/graph/storage.rs: timespan"]}
{"id": "C131", "title": "A scheduler is a graph with an origin of dates", "statement": "Add an instant to a graph to stand for the origin of dates. Requesting windows for instants from a scheduler on the graph, and giving them to the extended graph as constraints on the delays from the origin, get the same answers (Unchanged, Propagated or Recovered), request by request and without a panic; and at any time the dates left for an instant by the scheduler are exactly the time span the graph announces from the origin to it.", "quantifier": "all graphs built by any history of single constraints, batches, merges, resets, growth and shrinking; all sequences of windows (dates, intervals and ranges which are not empty) of any length; bounds which rule out saturation; debug and release builds", "why_tests_cant": "The two propagations are different programs: one pass over sets for the scheduler, the closure of a matrix for the graph. Tests can only compare them on a few sequences.", "anchors": ["src/graph/scheduler.rs: TimeScheduler::retain, propagate_scheduling", "src/graph/propagation.rs: TimeGraph::propagate, propagate_lower_bound", "src/graph/storage.rs: TimeGraph::resize, TimeGraph::timespan"]}
{"id": "C132", "title": "Adding constraints never gives anything back", "statement": "Of two graphs, whatever the programs which built them, the constraints of one imply those of the other if and only if every delay it allows between two instants is allowed by the other; then it refuses all the constraints, batches and merges the other refuses, and answers Unchanged to the single constraints the other answers Unchanged to. In the same way, of two schedulers, on the same graph or not and after different requests, if every plan of the second is a plan of the first, then every date it leaves is left by the first, it refuses whatever the first refuses, and answers Unchanged to the windows (and, with as many instants, to the deadlines and startlines) the first answers Unchanged to.", "quantifier": "all pairs of histories of graphs (single constraints, batches, merges, resets, growth, shrinking), all pairs of minimal graphs and of histories of requests; bounds which rule out saturation", "why_tests_cant": "It compares all pairs of histories, of which neither needs to be a continuation of the other.", "anchors": ["src/graph/propagation.rs: TimeGraph::propagate, TimeGraph::extend, TimeGraph::merge", "src/graph/storage.rs: TimeGraph::timespan", "src/graph/scheduler.rs: TimeScheduler::retain, set_deadline, set_startline"]}
{"id": "C133", "title": "What a graph announces can be asked for", "statement": "After any history of a graph, the answer to a constraint between two of its instants is decided by the time span announced between them: it is refused if and only if they have no common delay, Unchanged if and only if it allows the whole time span, and the time span announced afterwards is exactly the intersection. Choosing a delay in an announced time span, then another one in the time span announced for another pair, and so on, in any order, never needs backtracking: every choice is accepted, the chosen delays are then the only ones announced, and once the delays from an instant to all the others have been chosen they are a solution of everything accepted.", "quantifier": "all histories of a graph (single constraints, batches, merges, resets, growth, shrinking) on up to 65535 instants, all constraints, all sequences of choices of pairs and delays; bounds which rule out saturation", "why_tests_cant": "The choices are made in what the previous ones have left, so no finite set of tests covers the sequences of choices.", "anchors": ["src/graph/mod.rs: TimeGraph", "src/graph/propagation.rs: propagate"]}
{"id": "C134", "title": "Replicas which exchange their graphs converge", "statement": "Several graphs evolve apart, then exchange what they know: in an exchange a copy of one is merged into another. Whatever the exchanges, their order and their repetition, if what the replicas know is consistent no exchange fails, and as long as none fails the solutions of each replica are exactly those of all the replicas of which it has heard, directly or not. Two replicas which have heard of the same ones announce the same delays; an exchange fails exactly when what the two replicas have heard is inconsistent, and hearing again what is already known changes no delay.", "quantifier": "all numbers of replicas, all histories of each of them, all finite sequences of exchanges", "why_tests_cant": "The sequences of exchanges and the histories of the replicas are unbounded.", "anchors": ["src/graph/propagation.rs: merge, global_propagation"]}
{"id": "C135", "title": "Announced delays add up", "statement": "The time spans announced by a graph can be added up along any route from instant to instant with the operator + of time spans: this does not panic, even if sums saturate, and the sum contains (in the sense of contains) the time span announced between the ends of the route. A delay minus (operator -) its first part contains its second part. In a scheduler, scheduling(i) + timespan(i,j) contains scheduling(j), and any date t of scheduling(i) plus timespan(i,j) overlaps scheduling(j).", "quantifier": "all minimal graphs, all routes, all histories of requests, all pairs of instants, all dates of the slots", "why_tests_cant": "Routes, graphs and histories are unbounded, and the sums saturate near the largest durations.", "anchors": ["src/graph/mod.rs: timespan", "src/ops/transl.rs: Add<TimeSpan>, Sub<TimeSpan>", "src/relns/contain.rs: contains", "src/graph/scheduler.rs: scheduling"]}
{"id": "C136", "title": "An interrupted change of a graph loses nothing and invents nothing", "statement": "If a call of propagate, extend or merge is interrupted by a panic (of the library, or of the iterator given to extend) and the panic is caught, wherever this happens, the graph can still be queried safely; every solution which satisfies what was accepted and what the interrupted call asked for is still a solution, and every solution still satisfies everything accepted before. This remains true over whole histories with any number of interrupted calls, after which a constraint or batch compatible with all that was asked is accepted without a panic. If the iterator of extend panics, the solutions are exactly those of the constraints produced so far, and extending with the remaining ones gives what the whole batch would have given. The delays announced by the graph left are as tight as its constraints imply.", "quantifier": "all graphs built by any history of calls on up to 65535 instants, all crash points of each call, all batches, all bounds including infinite ones", "why_tests_cant": "A test cannot interrupt a call at each of its writes, for all graphs and all histories.", "anchors": ["src/graph/propagation.rs: TimeGraph::propagate, propagate_lower_bound, global_propagation, merge, extend", "src/graph/storage.rs: resize, timespan"]}
{"id": "C137", "title": "An interrupted request to a scheduler loses nothing and invents nothing", "statement": "If retain, remove, set_deadline or set_startline is interrupted by a panic which is caught (set_deadline and set_startline panic on some incompatible requests, debug builds may fail an assertion), wherever this happens, each instant still has a slot, no slot has gained a date, and every plan which satisfies the graph, the accepted requests and the interrupted one is still within the slots. This remains true over whole histories with any number of interrupted requests, after which a compatible request is still accepted, and a refused one is incompatible. A request which panics leaves the schedule as it was.", "quantifier": "all graphs with non-empty time spans, all histories of requests with windows of any kind, all crash points of each request, debug and release builds", "why_tests_cant": "A test cannot interrupt a request at each of its writes, for all graphs, schedules and histories.", "anchors": ["src/graph/scheduler.rs: TimeScheduler::retain, remove, set_deadline, set_startline, propagate_scheduling", "src/ops/intersect.rs: BitAndAssign"]}
{"id": "C138", "title": "A compound assignment which panics leaves the window as it was", "statement": "If a compound assignment (|=, &=, +=, -=, *=, /=) to an interval or a set panics and the panic is caught, the window is as it was before. The assignments which compute the whole set first (|= and &= of sets, += and -= of spans) and the division by an integer do so. Those which work in place (+= and -= of a duration, *= and /= by a float, *= by an integer) at least leave every interval either as it was or completely changed, up to a certain interval and not beyond, and leave a set in order, which can still be used.", "quantifier": "all canonical sets, all intervals, durations, integer and float factors, all crash points", "why_tests_cant": "The panic may come at any interval of a set of any size, and what is left depends on all of them.", "anchors": ["src/ops/transl.rs: AddAssign, SubAssign", "src/ops/scaling.rs: MulAssign, DivAssign", "src/ops/union.rs: BitOrAssign", "src/ops/intersect.rs: BitAndAssign"]}
{"id": "C139", "title": "A set never has more pieces than its calculation explains", "statement": "The union of two sets has at most as many intervals as both together; their intersection at least one less, and none if one of them is empty; a complement at most one more, and at most one less; a translation of a set by a duration exactly as many; a translation by a span, a scaling by an integer, a division, a truncation at most as many; a sum of sets at most the product; a collection at most as many as its items. So the result of any calculation is bounded by the size of what went into it. A set in order has the least number of intervals which can describe its dates. The lazy union and intersection of two lists take at most one turn of their loop for each interval.", "quantifier": "all lists of intervals, all calculations of any depth, all sets in canonical form", "why_tests_cant": "The bounds concern sets of any size and calculations of any depth; a test measures one.", "anchors": ["src/iter/union.rs: UnionIter", "src/iter/intersect.rs: IntersectionIter", "src/wins/timeset.rs: FromIterator", "src/ops/compl.rs", "src/ops/transl.rs", "src/ops/scaling.rs"]}
{"id": "C140", "title": "Requests cost what they announce", "statement": "Adding a constraint between two of the n instants of a graph changes at most 2(n\u00b2+n+1) cells; a batch of m constraints at most 3m+n\u00b3; a merge at most n\u00b3 after the comparison of the graphs. A request to a scheduler writes at most n+1 slots, a deadline or a startline at most n(n+1). An addition or a request which is refused, or which changes nothing, writes nothing at all.", "quantifier": "all graphs, constraints, batches and schedulers, of any size", "why_tests_cant": "The number of writes depends on the size and on the content of the graph; the worst case cannot be found by tests.", "anchors": ["src/graph/propagation.rs: propagate, extend, merge, propagate_lower_bound, global_propagation", "src/graph/scheduler.rs: retain, remove, set_deadline, set_startline"]}
{"id": "C141", "title": "Calculations with durations, spans and sets compose", "statement": "Within range: (a + b) + c == a + (b + c) for durations, with the same panics when infinities cancel; (s + A) + B == (s + B) + A == s + (A + B) for a set and spans; (s + A) - A == s + (A - A), which holds all the dates of s; s within s' and A within A' give s + A within s' + A' (and the same for -); (s * n) * m == s * (n * m), (s / n) / m == s / (n * m) and (s * n) / n == s for non-zero integers of any sign and type; (i + A) * n == i * n + A * n and (s + d) * n == s * n + d * n.", "quantifier": "all canonical sets, non-empty spans, durations and non-zero integers whose results are representable (bounds at most W with 3W or 2W|n| below 2^63 - 1, or the bounds of the products representable); bounded sets for the divisions", "why_tests_cant": "Each law relates several calculations on sets with unboundedly many intervals, which may merge or change order on the way; a test fixes one arrangement.", "anchors": ["src/ops/transl.rs: Add and Sub for TimeSet and TimeInterval", "src/ops/scaling.rs: Mul and Div for TimeSpan and TimeSpans", "src/wins/timevalue.rs: Add"]}
{"id": "C142", "title": "Rounding composes", "statement": "floor and ceil keep the order; moving a value by whole periods moves its rounding alike; rounding to a period and then to a multiple of it is rounding to the multiple at once (floor, ceil, and the units of a duration: t.hours().days() == t.days()); the ceiling is the mirror image of the floor; an infinite value stays infinite and the result is always a valid value.", "quantifier": "all durations and timestamps, infinite ones included, all positive periods", "why_tests_cant": "the laws relate several roundings of any value to any pair of periods; they fail on isolated residues and at the ends of the range only", "anchors": ["src/wins/timevalue.rs: TimeValue::floor, TimeValue::ceil", "src/wins/timestamp.rs: Timestamp::floor, Timestamp::ceil", "src/wins/convert.rs: IntoTimeValue for TimeValue"]}
{"id": "C143", "title": "The length of a slot behaves like a length", "statement": "duration() of a non-empty slot is the least duration which separates no two points of it, +oo if there is none. A slot within another one is not longer; moving a slot does not change its length; adding or subtracting an uncertain delay lengthens it by the width of the delay; enlarge(d) lengthens it by 2d; the two parts of a slot cut at one of its dates have lengths which add up to its length; start + duration == end and end - duration == start.", "quantifier": "all slots with a date, bounded or not, all delays with finite bounds, as long as the bounds of the results are representable; lengths saturate at +oo; the last sentence for bounded slots shorter than +oo", "why_tests_cant": "the laws compare the lengths of the results of other operations for all slots, saturation included", "anchors": ["src/wins/timeinterval.rs: TimeSlot::duration, enlarge, truncate_before, truncate_after", "src/ops/transl.rs", "src/wins/timestamp.rs: Add, Sub"]}
{"id": "C144", "title": "Merging a graph is adding its constraints", "statement": "a.merge(b), a.extend(b.iter()) and propagating the constraints of b.iter() one by one come to the same: the merge is refused iff the batch is, iff one of the single constraints is; otherwise they announce the same delay between any two instants, and give the same graph if b has no more instants than a (extend knows nothing of the last instants of b if they are not constrained).", "quantifier": "all pairs of minimal graphs of any sizes without tick overflow (3*n*W < 2^63-1 for bounds at most W); one by one: b has no more instants than a", "why_tests_cant": "it compares three algorithms (cell by cell merge with a global propagation, batch insertion, incremental propagation) on all pairs of graphs", "anchors": ["src/graph/mod.rs: TimeGraph::merge, extend", "src/graph/propagation.rs", "src/graph/constraints.rs: iter"]}
{"id": "C145", "title": "A slot repeated with a period", "statement": "t.forward_sequence(p).take(n).map(|x| x + span).collect::<TimeSlots>() holds exactly the dates which span allows after one of t, t+p, ..., t+(n-1)p, as n intervals if the period leaves a gap between two slots and as a single one otherwise; so does the program on a backward sequence with its dates.", "quantifier": "all starts at least one period after the beginning of time, all positive finite periods, all bounded spans, all n, as long as the slots are in range; backward sequences start at t-2p (C56)", "why_tests_cant": "the program composes sequences, translations and collection; the result must be the same for any number of dates", "anchors": ["src/seq/mod.rs: Timestamp::forward_sequence, backward_sequence", "src/seq/forward.rs: next", "src/seq/backward.rs: next", "src/ops/transl.rs: Timestamp + TimeSpan", "src/wins/timeset.rs: FromIterator"]}
{"id": "C146", "title": "Once over, an iterator stays over", "statement": "Once next() of a pipeline of windows has returned None it returns None for ever, without a panic, whatever is put on top of whatever (unions, intersections, exclusions, complements, translations, scalings and the adaptors of the standard library), and at whatever moment the end is reached; so do the sequences of dates and the iterators over the constraints of a graph, which are declared FusedIterator.", "quantifier": "all pipelines of any depth, any number of further calls; all sequences, all graphs and states of their iterators", "why_tests_cant": "the end is reached in a different state of the machine for each combination of inputs, and the number of calls after it is unbounded", "anchors": ["src/iter/union.rs: IterUnion", "src/iter/intersect.rs: IterIntersection", "src/iter/compl.rs: IterComplementary", "src/iter/transl.rs", "src/seq/forward.rs: TimeSeqForward", "src/seq/backward.rs: TimeSeqBackward", "src/graph/constraints.rs: TimeConstraintIter, TimeConstraintFromIter"]}
{"id": "C147", "title": "A pipeline works in proportion to what it reads", "statement": "Iterating over a pipeline of windows until its first None (or a panic) takes at most (2*d+1)*(S+3*K)+1 rounds of the loops of all its iterators together, where S is the number of intervals read, K the number of unions, intersections, exclusions and complements, and d how many unions, intersections or exclusions are nested; so there is no infinite loop and no quadratic one in the number of intervals, even on intervals which are out of order. At most S+K items come out.", "quantifier": "all pipelines of any depth and shape over intervals in any order, both build profiles", "why_tests_cant": "the bound must hold for every arrangement of the intervals, and of the operators", "anchors": ["src/iter/union.rs: IterUnion::next", "src/iter/intersect.rs: IterIntersection::next", "src/iter/compl.rs: IterComplementary::next", "src/iter/excl.rs", "src/iter/transl.rs", "src/iter/scaling.rs"]}
{"id": "C148", "title": "Every answer can be explained", "statement": "Graph: each bound of a delay announced by timespan(i, j) is the total of a chain of accepted constraints from one instant to the other, no chain gives a stronger total, and a side without a bound is one without a chain; propagate refuses a constraint iff it closes a loop of accepted constraints which puts an instant after itself, and returns Unchanged iff chains already require as much; constraints can be collected into a graph iff they make no such loop. Scheduler: the earliest (latest) date left for an instant comes from one accepted request and one announced delay; a refused request contradicts one accepted request alone.", "quantifier": "all graphs with at most 65535 instants, all histories of propagate on their instants and all collected lists of non-empty constraints, without tick overflow; all histories of retain with non-empty convex windows, set_deadline and set_startline on minimal graphs, within range", "why_tests_cant": "the chain may have any length and go through any instants, and the explanation must exist for every history", "anchors": ["src/graph/mod.rs: TimeGraph::propagate, extend, timespan", "src/graph/propagation.rs", "src/graph/scheduler.rs: TimeScheduler::retain, set_deadline, set_startline"]}
{"id": "C149", "title": "A small change has a small effect", "statement": "When the bounds of the constraints of a graph are moved by some ticks, no bound of a delay announced by timespan moves by more ticks than the total of the moves, and no bound appears or disappears (the requests being accepted in both cases); if some assignment of dates obeys all the constraints with a margin of d ticks, the constraints moved by at most d ticks each are all accepted. When the requests to a scheduler are moved by at most d ticks each, and the delays of its graph by at most D ticks, the earliest and the latest date left for an instant move by at most d+D ticks, however many requests there are.", "quantifier": "all graphs with at most 65535 instants built by propagate or collected, without tick overflow; all histories of retain with non-empty convex windows, set_deadline and set_startline on minimal graphs, within range; all moves of the bounds", "why_tests_cant": "the bound must hold for all pairs of histories, with any number of constraints moved at once", "anchors": ["src/graph/mod.rs: TimeGraph::propagate, extend, timespan", "src/graph/propagation.rs", "src/graph/scheduler.rs: TimeScheduler::retain, set_deadline, set_startline"]}
{"id": "C150", "title": "Parts of a plan which share one instant", "statement": "If two parts of the instants share a single instant c and each constraint is inside one of the parts, then the constraints of a part get the same answers from propagate, and give the same delays between the instants of this part, as if the constraints of the other part had never been given; and the delay announced from an instant of one part to an instant of the other one is exactly the sum of the delays to c and from c.", "quantifier": "all graphs with at most 65535 instants, all pairs of parts sharing one instant, all interleavings of constraints of the two parts, accepted or refused, without tick overflow", "why_tests_cant": "it must hold for every partition of the instants and every interleaving", "anchors": ["src/graph/mod.rs: TimeGraph::propagate, timespan", "src/graph/propagation.rs"]}
{"id": "C151", "title": "Narrowing can be repeated", "statement": "However intersections (a & b, a & w, a &= w), truncations and negations of sets are nested, the result never panics, has exactly the dates it should, and contains(date) and contains(a..=b) answer accordingly, even if sets which touch were intersected on the way; the intersections of the same sets give the same value in whatever order, grouping and number they are made; and a result without a date can be translated without gaining one.", "quantifier": "All expressions of any depth over canonical sets, proper windows and finite cuts; all nests of intersections of the same sets; all translations of the results", "why_tests_cant": "Whether an intermediate value holds an interval without dates depends on every operand together; the number of expressions, of orders and of groupings is unbounded.", "anchors": ["src/ops/intersect.rs: BitAnd, BitAndAssign", "src/iter/intersect.rs: IntersectionIter::next", "src/wins/timeset.rs: truncate_before, truncate_after, Neg", "src/relns/contain.rs: contains", "src/ops/transl.rs: Add"]}
{"id": "C152", "title": "Sets of dates asked for one instant, or for two, are scheduled exactly", "statement": "If all the requests to a scheduler (retain and remove, with intervals, ranges, dates and sets) are about one instant, or if the graph has two instants, then the dates announced for each instant are exactly those it has in the solutions of the graph which follow the accepted requests; and a further request is answered Unchanged iff all these solutions follow it, and refused iff none does.", "quantifier": "All minimal graphs of any size, all histories of requests about one instant, accepted or refused; all minimal graphs of two instants and all histories; all dates; all further requests", "why_tests_cant": "The sets may have any number of intervals and the histories any length; a date which belongs to no solution shows only for some delays and some sets.", "anchors": ["src/graph/scheduler.rs: TimeScheduler::retain, remove, scheduling, propagate_scheduling", "src/ops/intersect.rs: BitAndAssign", "src/iter/transl.rs"]}
{"id": "C153", "title": "Parts of a schedule which share one instant", "statement": "If two parts of the instants of a graph share a single instant c, then the requests to the scheduler about one part act on the other one only through the dates they leave for c: the dates announced for an instant of a part are those allowed by the constraints, the requests accepted about this part, and some date of c which the requests about the other part would leave alone. So two histories with the same accepted requests about a part, whose requests about the other part leave alone the same slots for c, announce the same slots for all the instants of the part and give the same answer to any next request about it.", "quantifier": "All minimal graphs whose delays between the parts are sums of delays through c, in particular all graphs built by constraints inside the parts; all histories of retain with non-empty convex windows, set_deadline and set_startline, accepted or refused, within range; all pairs of such histories", "why_tests_cant": "It compares histories of any length which differ in everything said about the other part, on graphs of any shape.", "anchors": ["src/graph/scheduler.rs: TimeScheduler::retain, set_deadline, set_startline, scheduling, propagate_scheduling", "src/graph/propagation.rs"]}
{"id": "C154", "title": "Instants at a fixed delay move together", "statement": "If the graph announces a single delay d from an instant to another, then whatever has been asked of the scheduler, about any instants and with any windows and sets, the dates left for the second instant are exactly those left for the first one moved by d, as long as each instant has a date left; if all the delays of the graph are single, the dates left for each instant are exactly those it has in the solutions which follow all the accepted requests.", "quantifier": "All minimal graphs, all pairs of instants at a fixed finite delay, all histories of retain and remove with proper windows and sets, accepted or refused, within range; all histories of retain with non-empty convex windows, set_deadline and set_startline", "why_tests_cant": "A request about one instant reaches the two others along different computations (restriction, translation of each interval, intersection), which must stay in step for histories of any length.", "anchors": ["src/graph/scheduler.rs: TimeScheduler::retain, remove, set_deadline, set_startline, scheduling, propagate_scheduling", "src/iter/transl.rs", "src/ops/intersect.rs: BitAndAssign"]}
{"id": "C155", "title": "A plan made of steps takes the sums of its steps", "statement": "If each instant is placed with respect to at most one other instant and no chain of such steps comes back, then propagate accepts all the constraints, in whatever order they are given; the delays which timespan announces between two instants joined by steps are exactly the sums of delays which the steps allow, and between two instants placed from a same third one, by steps which share no other instant, exactly the differences of such sums. In particular a chain of steps of at least a_m and at most b_m ticks announces from the sum of the a_m to the sum of the b_m.", "quantifier": "All plans of that shape on at most 65535 instants, all orders and repetitions of the constraints, bounded or not on each side, without tick overflow; all pairs of joined instants", "why_tests_cant": "The number of steps, the shape of the plan and the order of the constraints are unbounded; a delay which is lost or added shows only for some chains.", "anchors": ["src/graph/mod.rs: TimeGraph::with_size, propagate, timespan", "src/graph/propagation.rs"]}
{"id": "C156", "title": "A plan between a startline and a deadline follows its critical paths", "statement": "Constraints which can all be satisfied are all accepted, in any order; this is always the case of precedences (an instant at least some delay after another one) without a cycle. On the scheduler of such a graph set_startline(a) is accepted and leaves for each instant exactly the dates which are after a by at least the total of each chain of constraints which leads to it; then set_deadline(b) is refused iff some chain does not fit between a and b, and otherwise leaves for each instant exactly the dates which are after a by the total of each chain to it, and before b by the total of each chain from it. earliest_ending() is then a plus the greatest total of a chain, and latest_beginning() is b minus it.", "quantifier": "All satisfiable lists of constraints on at most 65535 instants, in any order, and all graphs with their meaning; all precedence plans without a cycle; all startlines and deadlines, without tick overflow; both build profiles", "why_tests_cant": "The number of chains grows exponentially with the plan, and an error of one tick on one chain shows only for the dates at the end of the margin.", "anchors": ["src/graph/mod.rs: TimeGraph::propagate", "src/graph/scheduler.rs: TimeScheduler::new, set_startline, set_deadline, scheduling, earliest_ending, latest_beginning, propagate_scheduling"]}
{"id": "C157", "title": "The intersection of two intervals without a common date behaves like an empty window", "statement": "When two intervals have no date in common, a & b has no date; a further &, a truncation on either side or a negation gives no date either, | with any window on either side gives exactly the dates of the window, ! gives all the dates, its duration is zero, it contains only the windows which have no date, it is contained in every window, it overlaps none, ! and | give canonical sets, adding a span gives no date, adding a duration does not panic, and the intersection with a set is the empty set, in place or not.", "quantifier": "every pair of well-formed intervals without a common date, every window, every cut, every finite span and duration, every canonical set", "why_tests_cant": "a test which intersects disjoint intervals looks at is_empty or at the dates of that result, not at what every later operation does with the bounds left in the wrong order.", "anchors": ["src/ops/intersect.rs: TimeInterval BitAnd", "src/ops/union.rs: TimeInterval BitOr", "src/ops/compl.rs: TimeInterval Not", "src/ops/transl.rs: Add<TimeValue>, Add<TimeInterval>", "src/relns/contain.rs: TimeContains", "src/relns/overlap.rs: TimeOverlapping", "src/wins/timeinterval.rs: truncate_before, truncate_after, duration"]}
{"id": "C158", "title": "Asking a scheduler for the dates in two intervals at once is refused when there are none", "statement": "When two intervals a and b have no date in common, retain(i, a & b) is answered Err and leaves the schedule as it was, whatever the slots of the instants.", "quantifier": "every valid graph, every canonical schedule, every instant, every pair of intervals without a common date", "why_tests_cant": "tests ask for windows which have dates; what an intersection without dates does depends on where every slot of the instant lies between the two intervals.", "anchors": ["src/graph/scheduler.rs: retain, propagate_scheduling", "src/ops/intersect.rs: TimeInterval BitAnd, TimeSet BitAndAssign", "src/relns/overlap.rs: TimeOverlapping<TimeSet>", "src/wins/timeset.rs: truncate_before, truncate_after"]}
{"id": "C159", "title": "Asking a graph for the delays in two intervals at once is refused when there are none", "statement": "When two intervals a and b have no value in common, propagate(((i, j), a & b)) is answered Err(Recovered) and leaves the graph as it was, whether the instants are in the graph or new.", "quantifier": "every valid minimal graph (any bounds), every pair of instants, every pair of intervals without a common value", "why_tests_cant": "tests give constraints which have values; what a constraint whose bounds are in the wrong order does depends on the delays which every other constraint leaves.", "anchors": ["src/graph/propagation.rs: propagate, propagate_lower_bound", "src/graph/mod.rs: TimeConstraint for ((Instant,Instant), TW)", "src/ops/intersect.rs: TimeInterval BitAnd"]}
{"id": "C160", "title": "Removing the dates common to two intervals which have none removes nothing", "statement": "remove(i, a & b), where a is an interval which ends before the interval b begins, removes no date: it is never refused, it is answered Ok(Unchanged) and the schedule is left as it was.", "quantifier": "all schedulers, all instants, all pairs of intervals without a common date; debug and release builds", "why_tests_cant": "The negation of an interval whose bounds are in the wrong order is a set whose two intervals overlap, a value which none of the relations and operations on sets expects.", "anchors": ["src/graph/scheduler.rs: remove, retain", "src/ops/compl.rs: not", "src/iter/intersect.rs: next", "src/relns/contain.rs: contains"]}
