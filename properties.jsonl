{"id": "C01", "title": "Circular buffer behaves like a bounded deque", "statement": "Running any sequence of CircularBuffer calls (push/pop at both ends, clear, resize, extend, linearize, swap, reverse, element replacement, and the observers len/capacity/is_empty/is_full/first/last/index/iter) on a fresh buffer gives exactly the return values, panics and dropped values that a plain list with a capacity limit gives.", "quantifier": "every element type, every capacity up to isize::MAX, every finite sequence of calls with every argument, both overflow-check modes, both debug-assertion modes, every usize width", "why_tests_cant": "The wrap-around position of the two internal indices depends on the whole history; tests only sample a few histories at small capacities.", "anchors": ["src/circular_buffer/circular.rs::CircularBuffer", "src/circular_buffer/iter.rs::Drain"]}
{"id": "C02", "title": "push_back keeps the newest capacity elements", "statement": "push_back(v) makes the content the last capacity() elements of (old content followed by v): it appends when not full, evicts exactly the front element when full, and discards v when the capacity is zero.", "quantifier": "every reachable buffer and every value", "why_tests_cant": "needs every fill level and every wrap position", "anchors": ["src/circular_buffer/circular.rs::push_back"]}
{"id": "C03", "title": "push_front keeps the foremost capacity elements", "statement": "push_front(v) makes the content the first capacity() elements of (v followed by old content); when full exactly the back element is evicted; capacity zero discards v.", "quantifier": "every reachable buffer and every value", "why_tests_cant": "needs every fill level and every wrap position", "anchors": ["src/circular_buffer/circular.rs::push_front"]}
{"id": "C04", "title": "len, capacity, is_empty and is_full agree with the content", "statement": "At every moment len() is the number of elements iter() yields, 0 <= len() <= capacity(), is_empty() iff len()==0 and is_full() iff len()==capacity().", "quantifier": "every reachable buffer", "why_tests_cant": "invariant over all histories", "anchors": ["src/circular_buffer/circular.rs::len", "src/circular_buffer/circular.rs::capacity", "src/circular_buffer/circular.rs::is_empty", "src/circular_buffer/circular.rs::is_full"]}
{"id": "C05", "title": "Only resize changes the capacity", "statement": "capacity() always returns the value given to the constructor (or the number of source elements for from/from_iter) or to the last successful resize; no other call changes it.", "quantifier": "every history of calls", "why_tests_cant": "invariant over all histories", "anchors": ["src/circular_buffer/circular.rs::capacity", "src/circular_buffer/circular.rs::resize", "src/circular_buffer/circular.rs::with_capacity"]}
{"id": "C06", "title": "resize keeps the newest elements in order", "statement": "resize(n) leaves exactly the newest min(len, n) elements, in their old order, drops exactly the older ones oldest first, and sets capacity() to n.", "quantifier": "every reachable buffer and every n up to isize::MAX, and every n below usize::MAX for sized elements; larger arguments are C21", "why_tests_cant": "both shrinking and growing from every wrap position", "anchors": ["src/circular_buffer/circular.rs::resize"]}
{"id": "C07", "title": "No memory-unsafe access and no unexpected panic", "statement": "No call on a reachable buffer (clone excepted) reads an uninitialised slot, indexes outside the backing slice, over- or underflows usize, trips a debug assertion or loops forever; the only panics are the documented index panic, allocation-size panics, and panics raised by user code.", "quantifier": "every history of calls, every argument (resize arguments as in C06), both build modes", "why_tests_cant": "the code is unsafe: a test run that reads an uninitialised slot may still pass", "anchors": ["src/circular_buffer/circular.rs::internal_index", "src/circular_buffer/circular.rs::pop_at", "src/circular_buffer/circular.rs::push_at", "src/circular_buffer/circular.rs::slices"]}
{"id": "C08", "title": "Every stored value is returned, dropped or still stored exactly once", "statement": "For any history, the values handed to the buffer (of extend(&items): the clones made) are, as a multiset, exactly the values returned to the caller plus the values dropped by the buffer plus the values still in it; dropping the buffer, if no element destructor panics (for that see C67), moves the last group to the second; so does into_iter(), with the values it returned before it was dropped in the first. Nothing is leaked, duplicated or dropped twice.", "quantifier": "every history of calls including resize, clear, replacement and the final drop", "why_tests_cant": "depends on manual drop bookkeeping over all histories", "anchors": ["src/circular_buffer/circular.rs::Drop", "src/circular_buffer/circular.rs::pop_at", "src/circular_buffer/circular.rs::push_at", "src/circular_buffer/circular.rs::clear"]}
{"id": "C09", "title": "A panicking element destructor cannot corrupt the buffer", "statement": "If an element's Drop panics inside push_back, push_front, clear, resize, extend or append, the buffer is still well formed afterwards: its content is a contiguous part of what an uninterrupted run would have seen, no value has been or will be dropped twice, and every later call still behaves like the bounded deque.", "quantifier": "every history and every set of values whose destructor panics (every crash point)", "why_tests_cant": "crash points inside unsafe bookkeeping cannot be enumerated by tests", "anchors": ["src/circular_buffer/circular.rs::clear", "src/circular_buffer/circular.rs::push_back", "src/circular_buffer/circular.rs::resize"]}
{"id": "C10", "title": "All element views agree", "statement": "iter(), the concatenation of the two slices(), the concatenation of the two slices_mut(), index i for i<len, first() and last() all describe the same sequence.", "quantifier": "every reachable buffer", "why_tests_cant": "every wrap position", "anchors": ["src/circular_buffer/circular.rs::iter", "src/circular_buffer/circular.rs::slices", "src/circular_buffer/circular.rs::slices_mut", "src/circular_buffer/circular.rs::first", "src/circular_buffer/circular.rs::last", "src/circular_buffer/circular.rs::Index"]}
{"id": "C11", "title": "linearize makes the content contiguous without changing it", "statement": "linearize() returns the whole content in order; afterwards the first slice is the whole content, the second is empty, and capacity is unchanged.", "quantifier": "every reachable buffer", "why_tests_cant": "every wrap position", "anchors": ["src/circular_buffer/circular.rs::linearize"]}
{"id": "C12", "title": "swap and reverse permute as advertised", "statement": "swap(a,b) exchanges exactly the elements at positions a and b; reverse() makes the content the reversed content; reversing twice restores it.", "quantifier": "every reachable buffer and all positions", "why_tests_cant": "every wrap position and length parity", "anchors": ["src/circular_buffer/circular.rs::swap", "src/circular_buffer/circular.rs::reverse"]}
{"id": "C13", "title": "extend and append keep the newest elements", "statement": "extend(xs) leaves the last capacity() elements of (content followed by xs); append does the same with the other buffer's content and leaves the other buffer empty with its capacity unchanged.", "quantifier": "every pair of reachable buffers, every sequence", "why_tests_cant": "every fill level and overflow amount", "anchors": ["src/circular_buffer/circular.rs::extend", "src/circular_buffer/circular.rs::append"]}
{"id": "C14", "title": "Draining and owning iteration yield the content front to back", "statement": "drain() and into_iter() yield the elements in order; after k steps of drain the buffer holds exactly the elements from position k on; dropping a partially consumed into_iter drops exactly the rest.", "quantifier": "every reachable buffer and every k", "why_tests_cant": "every wrap position and every stopping point", "anchors": ["src/circular_buffer/iter.rs::Drain", "src/circular_buffer/iter.rs::IntoIter"]}
{"id": "C15", "title": "Comparison depends only on the content", "statement": "==, partial_cmp and cmp compare the two contents lexicographically, whatever the capacities and internal positions; cmp is a total order compatible with ==.", "quantifier": "all pairs of reachable buffers", "why_tests_cant": "all layouts of the same content", "anchors": ["src/circular_buffer/circular.rs::PartialEq", "src/circular_buffer/circular.rs::PartialOrd", "src/circular_buffer/circular.rs::Ord"]}
{"id": "C16", "title": "clone yields an equal, independent buffer", "statement": "clone() returns a buffer with the same content and capacity and never touches an uninitialised slot.", "quantifier": "every reachable buffer of every clonable element type", "why_tests_cant": "the derived Clone touches spare slots; tests with i32 cannot notice", "anchors": ["src/circular_buffer/circular.rs::CircularBuffer (derive Clone)"]}
{"id": "C17", "title": "Out-of-range positions panic and change nothing", "statement": "index, index_mut and swap panic exactly when a position is >= len(), and a panicking call leaves the buffer unchanged.", "quantifier": "every reachable buffer and every position", "why_tests_cant": "every wrap position", "anchors": ["src/circular_buffer/circular.rs::internal_index", "src/circular_buffer/circular.rs::swap"]}
{"id": "C18", "title": "Construction from a sequence is exact", "statement": "from(vec), from_iter(items) and from_iter(&items) give a full buffer whose content is the items in order and whose capacity is their number; new(n)/with_capacity(n) give an empty buffer of capacity n or panic when the allocation is too large.", "quantifier": "every sequence and every n as in C06; larger arguments are C21", "why_tests_cant": "all sizes, including the capacity+1 overflow at usize::MAX", "anchors": ["src/circular_buffer/circular.rs::from_iter", "src/circular_buffer/circular.rs::from", "src/circular_buffer/circular.rs::with_capacity"]}
{"id": "C19", "title": "Double-ended iteration visits every element once", "statement": "Any interleaving of next() and next_back() on iter()/iter_mut() hands out the elements from the front in order and from the back in reverse order, each exactly once, then None for ever.", "quantifier": "every reachable buffer and every interleaving", "why_tests_cant": "all interleavings over both internal slices", "anchors": ["src/circular_buffer/iter.rs::Iter", "src/circular_buffer/iter.rs::IterMut", "src/circular_buffer/circular.rs::iter", "src/circular_buffer/circular.rs::iter_mut"]}
{"id": "C20", "title": "Sliding window over a stream", "statement": "After pushing any stream to the back of a fresh buffer of capacity n, the content is the last n items of the stream, and popping from the front returns them oldest first.", "quantifier": "every stream length and every capacity", "why_tests_cant": "unbounded streams", "anchors": ["src/circular_buffer/circular.rs::push_back", "src/circular_buffer/circular.rs::pop_front"]}
{"id": "C21", "title": "Huge buffers of zero-sized elements", "statement": "Index arithmetic stays exact up to the largest capacity the constructor accepts, also for zero-sized element types.", "quantifier": "capacities up to usize::MAX - 1", "why_tests_cant": "such buffers cannot be exercised practically", "anchors": ["src/circular_buffer/circular.rs::len", "src/circular_buffer/circular.rs::internal_index"]}
{"id": "C22", "title": "Every obtainable interval is well formed", "statement": "Every interval produced by constructors, set operations, arithmetic or negation is either empty, or has lower < upper, or is a single value with both bounds closed.", "quantifier": "every sequence of Interval calls over every ordered type", "why_tests_cant": "invariant over all histories", "anchors": ["src/interval/interval.rs::Interval", "src/interval/interval.rs::fix_after_modification", "src/interval/interval_math.rs::Neg"]}
{"id": "C23", "title": "Constructors panic exactly on invalid bounds", "statement": "new, from_bounds, open, closed, lower_closed and upper_closed panic iff lower > upper, or lower == upper with an open bound; otherwise the accessors (into_tuple, into_bounds, bounds, lower, upper, is_lower_closed, is_upper_closed, is_single, is_empty) return what was given.", "quantifier": "all bounds of every ordered type", "why_tests_cant": "all relative orders and closedness combinations on infinite types", "anchors": ["src/interval/interval.rs::new", "src/interval/interval.rs::create_checked", "src/interval/interval.rs::from_bounds"]}
{"id": "C24", "title": "contains_val is set membership", "statement": "contains_val(v) holds iff v lies between the bounds, respecting closedness; an empty interval contains nothing.", "quantifier": "every obtainable interval and every value", "why_tests_cant": "all intervals, notably the empty one", "anchors": ["src/interval/interval.rs::contains_val"]}
{"id": "C25", "title": "contains_interval is set inclusion", "statement": "contains_interval(b) implies every value of b is in a; on densely ordered types the converse also holds.", "quantifier": "all pairs of obtainable intervals", "why_tests_cant": "all bound combinations", "anchors": ["src/interval/interval.rs::contains_interval"]}
{"id": "C26", "title": "Intersection is exact", "statement": "into_intersection and intersection never panic, agree, and give an interval whose members are exactly the values in both operands.", "quantifier": "all pairs of obtainable intervals of every ordered type", "why_tests_cant": "all bound combinations", "anchors": ["src/interval/interval.rs::into_intersection", "src/interval/interval.rs::intersection"]}
{"id": "C27", "title": "intersects tells whether two intervals share a value", "statement": "intersects is false only if the intervals have no common value, and on densely ordered types it is true only if they have one; an empty interval intersects nothing.", "quantifier": "all pairs of obtainable intervals", "why_tests_cant": "all bound combinations, notably empty operands", "anchors": ["src/interval/interval.rs::intersects"]}
{"id": "C28", "title": "Merging is exact union", "statement": "into_merged/merge never panic; on success the members are exactly the union; they fail exactly when can_be_merged is false, and then return both operands unchanged; on densely ordered types failure means the union is not an interval. The two variants agree.", "quantifier": "all pairs of obtainable intervals", "why_tests_cant": "all bound combinations", "anchors": ["src/interval/interval.rs::can_be_merged", "src/interval/interval.rs::into_merged", "src/interval/interval.rs::merge"]}
{"id": "C29", "title": "Span is the least enclosing interval", "statement": "into_span/span never panic, agree, contain both operands, and are contained in every interval that contains both; span is commutative, associative and idempotent with the empty interval as unit.", "quantifier": "all obtainable intervals", "why_tests_cant": "all triples of intervals", "anchors": ["src/interval/interval.rs::into_span", "src/interval/interval.rs::span"]}
{"id": "C30", "title": "Strict interval comparison compares all points", "statement": "a < b (a > b) implies every value of a is smaller (greater) than every value of b; for non-empty intervals over densely ordered types the converse holds; a < b and b < a never hold together; an empty interval is not comparable.", "quantifier": "all pairs of obtainable intervals", "why_tests_cant": "all bound combinations", "anchors": ["src/interval/interval_cmp.rs::PartialOrd for Interval"]}
{"id": "C31", "title": "Weak interval comparison allows one common point", "statement": "a <= b implies every value of a is at most every value of b, so they share at most one value; on densely ordered types with both non-empty the converse holds; a < b implies a <= b.", "quantifier": "all pairs of obtainable intervals", "why_tests_cant": "all bound combinations", "anchors": ["src/interval/interval_cmp.rs::PartialOrd::le for Interval", "src/interval/interval_cmp.rs::PartialOrd::ge for Interval"]}
{"id": "C32", "title": "Interval operators are consistent with partial_cmp", "statement": "For intervals, a <= b holds iff partial_cmp(a,b) is Less or Equal, and likewise for the other operators (the PartialOrd contract); the same for interval against value.", "quantifier": "all pairs of obtainable intervals", "why_tests_cant": "contract over all pairs", "anchors": ["src/interval/interval_cmp.rs::PartialOrd for Interval", "src/interval/interval_cmp.rs::PartialOrd<T> for Interval"]}
{"id": "C33", "title": "Interval-to-value comparison compares all points", "statement": "i < v (i > v) implies every value of i is below (above) v, and conversely when i has a value; i <= v (i >= v) implies every value of i is at most (at least) v, with the converse on densely ordered types for non-empty i; i == v iff i is the single value v; for non-empty i exactly one of i < v, i > v, i.contains_val(v) holds.", "quantifier": "every obtainable interval and value", "why_tests_cant": "all bound combinations", "anchors": ["src/interval/interval_cmp.rs::PartialOrd<T> for Interval", "src/interval/interval_cmp.rs::PartialEq<T> for Interval"]}
{"id": "C34", "title": "Bound orders are total and mean inclusion of half-lines", "statement": "cmp on lower bounds and on upper bounds is a total order consistent with ==, partial_cmp, the operators, min and max; l1 <= l2 implies that the half-line of l1 includes that of l2 (dually for upper bounds), and on densely ordered types the converse holds when the smaller half-line has a point; comparison with a value is consistent with partial_cmp.", "quantifier": "all bounds of every ordered type", "why_tests_cant": "order laws over all triples", "anchors": ["src/interval/bounds.rs::Ord for LowerBound", "src/interval/bounds.rs::Ord for UpperBound", "src/interval/bounds.rs::PartialOrd<T>"]}
{"id": "C35", "title": "Lower/upper cross comparison is a partial order comparison", "statement": "For a lower bound l and an upper bound u: not both l < u and l > u; l == u is the negation of l != u; l <= u iff partial_cmp says Less or Equal; l < u iff u > l.", "quantifier": "all pairs of bounds", "why_tests_cant": "contract over all pairs", "anchors": ["src/interval/bounds.rs::PartialOrd<UpperBound<T>> for LowerBound", "src/interval/bounds.rs::PartialEq<UpperBound<T>> for LowerBound"]}
{"id": "C36", "title": "Addition and subtraction translate the interval", "statement": "y is in i + c iff y - c is in i, and y is in i - c iff y + c is in i; (i + c) - c == i; adding never turns a non-empty interval empty.", "quantifier": "every obtainable interval and every c over every linearly ordered group", "why_tests_cant": "all values", "anchors": ["src/interval/interval_math.rs::Add", "src/interval/interval_math.rs::Sub"]}
{"id": "C37", "title": "Multiplication scales the interval", "statement": "For an ordered field and c != 0, y is in i * c iff y / c is in i, also for negative c; for any ordered ring and c != 0, x in i implies x*c in i*c; for c == 0 the result contains 0 whenever i is non-empty.", "quantifier": "every obtainable interval and every c", "why_tests_cant": "all values and signs", "anchors": ["src/interval/interval_math.rs::Mul"]}
{"id": "C38", "title": "Division scales the interval", "statement": "For an ordered field and c != 0, y is in i / c iff y * c is in i; for truncating integer division x in i implies x/c in i/c.", "quantifier": "every obtainable interval and every divisor", "why_tests_cant": "all values and signs, rounding", "anchors": ["src/interval/interval_math.rs::Div"]}
{"id": "C39", "title": "Negation mirrors the interval", "statement": "y is in -i iff -y is in i; -(-i) == i.", "quantifier": "every obtainable interval over every linearly ordered group", "why_tests_cant": "all values", "anchors": ["src/interval/interval_math.rs::Neg"]}
{"id": "C40", "title": "Operators and assigning operators agree", "statement": "i op= c leaves i equal to the result of i op c, for +, -, *, / on intervals and on bounds, and both panic on the same inputs.", "quantifier": "every interval, every operand, every element type whose own x op= c and x = x op c do the same, whatever its op= leaves behind when it panics", "why_tests_cant": "all values", "anchors": ["src/interval/interval_math.rs::AddAssign", "src/interval/bounds.rs::AddAssign"]}
{"id": "C41", "title": "Machine-integer arithmetic is ideal or panics", "statement": "With overflow checks, interval arithmetic over a fixed-width integer type (signed or unsigned) either returns the interval ideal (unbounded) arithmetic gives, or panics, and panics exactly if some bound overflows or a division by zero occurs; division overflows only for MIN / -1. Without overflow checks (wrapping arithmetic) the result is the ideal one whenever no bound overflows.", "quantifier": "every width, every interval, every operand", "why_tests_cant": "all boundary values", "anchors": ["src/interval/interval_math.rs::Add", "src/interval/interval_math.rs::Mul", "src/interval/interval_math.rs::Neg"]}
{"id": "C42", "title": "A panicking assigning operator leaves the interval well formed", "statement": "If the element arithmetic, or the comparison that puts the bounds in order, panics inside +=, -=, *= or /=, the interval observed afterwards is still well formed.", "quantifier": "every interval, every operand, every crash point", "why_tests_cant": "crash point between the two bound updates", "anchors": ["src/interval/interval_math.rs::AddAssign", "src/interval/interval_math.rs::MulAssign"]}
{"id": "C43", "title": "Interval equality is equality of point sets", "statement": "Equal intervals contain the same values; on densely ordered types obtainable intervals containing the same values are equal.", "quantifier": "all pairs of obtainable intervals", "why_tests_cant": "infinite point sets", "anchors": ["src/interval/interval.rs::Interval (derive PartialEq)"]}
{"id": "C44", "title": "Display is unambiguous and in the documented notation", "statement": "Two intervals whose bound values print injectively and without comma print the same text only if they are equal. The text is the notation used throughout the documentation: square brackets for closed bounds, round ones for open bounds, the lower value before the comma, so reading it gives back the bounds.", "quantifier": "all pairs of intervals", "why_tests_cant": "all values", "anchors": ["src/interval/interval.rs::Display"]}
{"id": "C45", "title": "A counter counts multiplicities", "statement": "After from_iter/extend/push of any sequences (by value or by reference, also when user iterators panic half-way), get(k) is Some(number of occurrences of k) if that number is positive and None otherwise, and len() is the number of distinct items (as long as no count exceeds usize::MAX).", "quantifier": "every sequence of items", "why_tests_cant": "unbounded sequences", "anchors": ["src/counter/counter.rs::push", "src/counter/counter.rs::from_iter", "src/counter/counter.rs::extend"]}
{"id": "C46", "title": "Counting ignores the order of items", "statement": "Feeding any permutation of the same items yields an equal counter.", "quantifier": "all permutations of all sequences", "why_tests_cant": "all permutations", "anchors": ["src/counter/counter.rs::push", "src/counter/counter.rs::PartialEq"]}
{"id": "C47", "title": "Counter addition adds multiplicities", "statement": "After a + b (or a += b, by value or by reference) every key's count is the sum of its counts in a and b, whatever the hash iteration order; addition is commutative and associative up to ==.", "quantifier": "all counters, all hash iteration orders", "why_tests_cant": "all iteration orders", "anchors": ["src/counter/counter.rs::AddAssign", "src/counter/counter.rs::Add"]}
{"id": "C48", "title": "Counter subtraction is truncated and removes exhausted keys", "statement": "After a - b (or a -= b, by value or by reference) a key of b is present iff its count in a exceeds that in b, and then holds the difference; other keys are untouched; no usize underflow occurs.", "quantifier": "all counters, all hash iteration orders", "why_tests_cant": "all iteration orders", "anchors": ["src/counter/counter.rs::SubAssign", "src/counter/counter.rs::Sub"]}
{"id": "C49", "title": "Addition then subtraction restores the counter", "statement": "(a + b) - b == a and a - a is empty for counters without zero counts; (a - b) + b has the pointwise maximum of the counts.", "quantifier": "all counters", "why_tests_cant": "algebraic law", "anchors": ["src/counter/counter.rs::Add", "src/counter/counter.rs::Sub"]}
{"id": "C50", "title": "No key is stored with count zero", "statement": "A counter built from an empty one by push, extend, +=, -= (no direct map access) never stores a zero count, so key presence means positive multiplicity.", "quantifier": "every history of calls on any number of counters", "why_tests_cant": "invariant over all histories", "anchors": ["src/counter/counter.rs::SubAssign", "src/counter/counter.rs::AddAssign", "src/counter/counter.rs::from_hashmap"]}
{"id": "C51", "title": "most_common lists every entry in descending count order", "statement": "most_common() and into_most_common() return every (key, count) entry exactly once with counts never increasing, so the first has maximal count; the relative order of ties is the only freedom.", "quantifier": "every counter and every unstable sort result", "why_tests_cant": "all tie orders", "anchors": ["src/counter/counter.rs::most_common", "src/counter/counter.rs::into_most_common"]}
{"id": "C52", "title": "Counts never silently go wrong with overflow checks", "statement": "With overflow checks a push or addition that would exceed usize::MAX panics; otherwise all counts stay exact.", "quantifier": "every counter at the usize boundary", "why_tests_cant": "boundary unreachable by tests", "anchors": ["src/counter/counter.rs::push", "src/counter/counter.rs::AddAssign"]}
{"id": "C53", "title": "The counts sum to the number of items", "statement": "The sum of all counts after counting a sequence is its length; addition adds the totals.", "quantifier": "every sequence", "why_tests_cant": "unbounded sequences", "anchors": ["src/counter/counter.rs::push", "src/counter/counter.rs::AddAssign"]}
{"id": "C54", "title": "Counter equality is multiset equality", "statement": "Two counters without zero counts (with overflow checks: any two built without direct map access) are == iff every key has the same multiplicity in both; == is lookup equality and an equivalence relation for all counters, whatever the hashers' orders.", "quantifier": "all pairs of counters", "why_tests_cant": "all iteration orders and histories", "anchors": ["src/counter/counter.rs::Counter (derive PartialEq)"]}
{"id": "C55", "title": "Conversion from a map is exact", "statement": "from_hashmap, From<HashMap> and From<&HashMap> give a counter with exactly the map's entries.", "quantifier": "every map and iteration order", "why_tests_cant": "all maps", "anchors": ["src/counter/counter.rs::from_hashmap", "src/counter/counter.rs::From"]}
{"id": "C56", "title": "in_union is the equivalence generated by the unions", "statement": "After any history, in_union(a,b) is true iff both elements were added since the last clear and they are connected by the pairs passed to union since then.", "quantifier": "every history of make_set, union, in_union, extend, iteration and clear", "why_tests_cant": "reachability over arbitrary histories with path compression", "anchors": ["src/disjoint_set/disjoint_set.rs::union", "src/disjoint_set/disjoint_set.rs::in_union"]}
{"id": "C57", "title": "contains, len and is_empty reflect the added elements", "statement": "contains(x) iff x was passed to make_set, union, extend or from_iter since the last clear; len() is the number of distinct such elements; queries add nothing.", "quantifier": "every history", "why_tests_cant": "invariant over all histories", "anchors": ["src/disjoint_set/disjoint_set.rs::contains", "src/disjoint_set/disjoint_set.rs::len", "src/disjoint_set/disjoint_set.rs::make_or_get_set"]}
{"id": "C58", "title": "Iteration yields the partition", "statement": "Iterating yields non-empty groups that together list every element exactly once, two elements being in the same group iff in_union says so, whatever the hash order.", "quantifier": "every history and every hash iteration order", "why_tests_cant": "all orders and histories", "anchors": ["src/disjoint_set/disjoint_set.rs::build_sets", "src/disjoint_set/disjoint_set.rs::SetIter"]}
{"id": "C59", "title": "Searches terminate with logarithmic recursion depth", "statement": "Every root search performed by union, in_union or iteration terminates and recurses at most log2(len)+1 levels deep, so a stack of 64 frames always suffices. The bound is the best possible: for every n there are histories over at most n elements that need log2(n)+1 levels.", "quantifier": "every history, unbounded sizes", "why_tests_cant": "unbounded sizes; recursion depth over all histories", "anchors": ["src/disjoint_set/disjoint_set.rs::find_with_path_compression"]}
{"id": "C60", "title": "Ranks stay logarithmic and no call panics on its own", "statement": "A DisjointSet call panics only if the user's code (key, iterator) panics in it or an absurd capacity is requested: every internal index is in range and the u32 rank never overflows, because a rank is at most log2(len).", "quantifier": "every history, unbounded sizes", "why_tests_cant": "boundary unreachable by tests", "anchors": ["src/disjoint_set/disjoint_set.rs::union", "src/disjoint_set/disjoint_set.rs::Data"]}
{"id": "C61", "title": "The number of groups is elements minus effective unions", "statement": "The number of groups yielded by iteration equals len() minus the number of union calls that joined two different groups since the last clear.", "quantifier": "every history", "why_tests_cant": "counting argument over all histories", "anchors": ["src/disjoint_set/disjoint_set.rs::union", "src/disjoint_set/disjoint_set.rs::build_sets"]}
{"id": "C62", "title": "Queries and path compression do not change the partition", "statement": "in_union, iteration, contains, len, is_empty and reserve never change the result of any later call.", "quantifier": "every history with queries inserted anywhere", "why_tests_cant": "all insertions of queries in all histories", "anchors": ["src/disjoint_set/disjoint_set.rs::find_with_path_compression", "src/disjoint_set/disjoint_set.rs::in_union"]}
{"id": "C63", "title": "The partition does not depend on the order of calls", "statement": "Permuting union/make_set calls, swapping the arguments of union, or repeating calls yields the same answers from contains, len and in_union.", "quantifier": "all permutations of all histories without clear", "why_tests_cant": "all permutations", "anchors": ["src/disjoint_set/disjoint_set.rs::union", "src/disjoint_set/disjoint_set.rs::make_set"]}
{"id": "C64", "title": "make_set is idempotent and isolated", "statement": "make_set(x) for a present x changes nothing observable; for a new x it adds a singleton group and leaves all other groups as they were.", "quantifier": "every reachable set and element", "why_tests_cant": "all histories", "anchors": ["src/disjoint_set/disjoint_set.rs::make_set"]}
{"id": "C65", "title": "clear resets completely", "statement": "After clear the structure behaves in every later history exactly like a new one.", "quantifier": "every history before and after", "why_tests_cant": "all histories", "anchors": ["src/disjoint_set/disjoint_set.rs::clear"]}
{"id": "C66", "title": "A caught panic leaves a correct disjoint set", "statement": "If user code panics inside a DisjointSet call and the panic is caught, all later calls answer as if just the elements handed over before the panic had been added (resp. removed).", "quantifier": "every history, every call, every panic of a key, iterator or element destructor", "why_tests_cant": "all interleavings of panics with all histories before and after", "anchors": ["src/disjoint_set/disjoint_set.rs::union", "src/disjoint_set/disjoint_set.rs::extend", "src/disjoint_set/disjoint_set.rs::clear"]}
{"id": "C67", "title": "Dropping the buffer drops every element even if a destructor panics", "statement": "When the buffer, or a partially consumed into_iter, is dropped and one element's destructor panics, every remaining element is still dropped exactly once, as for Vec, VecDeque and slices.", "quantifier": "every reachable buffer, every number of consumed elements, every position of the panicking element", "why_tests_cant": "needs every content and every position of the panicking element; leaks are not observable without instrumented elements", "anchors": ["src/circular_buffer/circular.rs::Drop", "src/circular_buffer/circular.rs::clear", "src/circular_buffer/iter.rs::IntoIter"]}
{"id": "C68", "title": "Path compression makes repeated searches shallow", "statement": "Once in_union(a, b) has searched the root of an element of a DisjointSet, every later search of that element follows at most one parent link as long as no union is called, whatever else happens in between; after an iteration this holds for every element; after a union(a, b) searches of a and b follow at most two links.", "quantifier": "every reachable disjoint set, every pair of elements, every later history without union", "why_tests_cant": "the depth of the search is not observable from outside; all histories and all later calls", "anchors": ["src/disjoint_set/disjoint_set.rs::find_with_path_compression", "src/disjoint_set/disjoint_set.rs::build_sets", "src/disjoint_set/mod.rs"]}
{"id": "C69", "title": "Documented amortised cost O(α(n)) of the disjoint set", "statement": "Over any history of calls that never holds more than n elements, the number of calls of find_with_path_compression, recursive ones included, is at most (α(n)+2) per root searched plus α(n) per union, α being the inverse of Ackermann's function; α(n) is at most 4 for every n that fits in a usize; one node is stored per element.", "quantifier": "every history, every n, every pointer width", "why_tests_cant": "an amortised worst-case bound over all histories of any length; benchmarks sample typical ones", "anchors": ["src/disjoint_set/disjoint_set.rs::union", "src/disjoint_set/disjoint_set.rs::in_union", "src/disjoint_set/disjoint_set.rs::find_with_path_compression", "src/disjoint_set/mod.rs"]}
{"id": "C70", "title": "is_separated_from means that there is space between the bounds", "statement": "A lower and an upper bound give the same answer whichever of the two is asked. If the answer is no, every value lies above the lower or below the upper bound. On a densely ordered type the answer is yes exactly if some value lies outside both. Two non-empty intervals can be merged exactly if no facing bounds are separated.", "quantifier": "all pairs of bounds over every linear order", "why_tests_cant": "quantifies over all values between and beyond the bounds", "anchors": ["src/interval/bounds.rs::are_separated", "src/interval/bounds.rs::LowerBound::is_separated_from", "src/interval/bounds.rs::UpperBound::is_separated_from"]}
{"id": "C71", "title": "Intervals form a lattice", "statement": "contains_interval is a partial order; the intersection is the greatest interval contained in both operands; intersection is commutative, associative and idempotent and absorbed by the empty interval; span and intersection absorb each other; a contains b exactly if their intersection is b, exactly if their span is a; merging does not depend on the order and equals the span; intersection distributes over merging.", "quantifier": "all triples of obtainable intervals over every linear order", "why_tests_cant": "algebraic laws over all triples and all combinations of open and closed bounds", "anchors": ["src/interval/interval.rs::contains_interval", "src/interval/interval.rs::into_intersection", "src/interval/interval.rs::into_span", "src/interval/interval.rs::into_merged"]}
{"id": "C72", "title": "Interval arithmetic is compatible with the set operations", "statement": "An order-preserving operator applied to two intervals commutes with intersection and span and changes no answer of contains_interval, contains_val, intersects, can_be_merged, <, >, == and is_single; an order-reversing one likewise, with < and > exchanged. (i + c) + d == i + (c + d), i - c == i + (-c), and for non-zero factors (i * c) * d == i * (c * d), (i + c) * d == i * d + c * d, -i == i * -1.", "quantifier": "all obtainable intervals, all strictly monotone operators, all ordered rings", "why_tests_cant": "all intervals, all operands, all numeric types with exact arithmetic", "anchors": ["src/interval/interval_math.rs", "src/interval/interval.rs::fix_after_modification"]}
{"id": "C73", "title": "Ordering of intervals composes", "statement": "On obtainable intervals < is a strict order (irreflexive, transitive) and <= composes with < and with itself on either side; a value that lies at or above one interval and strictly below another orders them; a non-empty part of an interval compares with other intervals and values as the whole does; two non-empty intervals are in exactly one of the relations <, >, intersects; partial_cmp seen from the other side is reversed; in a list where each interval is < the next, every earlier one is < every later one and all their points are in order.", "quantifier": "all obtainable intervals over every linear order, lists of any length", "why_tests_cant": "transitivity quantifies over all triples and all combinations of open and closed bounds; sortedness over lists of any length", "anchors": ["src/interval/interval_cmp.rs"]}
{"id": "C74", "title": "The circular buffer moves no elements and touches few slots", "statement": "Through any series of calls other than resize, linearize, swap and reverse, every element that was already in the buffer stays at the address it had; every push changes at most two slots of the backing slice, every pop one, from any state and even if the call panics. So pushing and popping cost O(1) moves whatever the capacity, as documented.", "quantifier": "every reachable buffer, every history, every capacity", "why_tests_cant": "addresses of elements are not observable without unsafe code; a worst-case bound over all states and capacities", "anchors": ["src/circular_buffer/circular.rs::push_back", "src/circular_buffer/circular.rs::push_front", "src/circular_buffer/circular.rs::pop_back", "src/circular_buffer/circular.rs::pop_front", "src/circular_buffer/mod.rs"]}
{"id": "C75", "title": "from_iter does not lose items when the iterator panics", "statement": "If from_iter returns, all items are in the buffer and none was dropped; if the user's iterator (or a clone) panics, every item consumed before the panic is dropped exactly once.", "quantifier": "every iterator, panicking at any point", "why_tests_cant": "leaks are invisible to assertions on results; panics at every point", "anchors": ["src/circular_buffer/circular.rs::from_iter"]}
{"id": "C76", "title": "Counting and subtracting in pieces", "statement": "(a - b) - c == (a - c) - b, and both equal a - (b + c) where b + c does not overflow; c.extend(items) equals c + from_iter(items), returning or panicking in the same cases in every build; from_iter(xs ++ ys) == from_iter(xs) + from_iter(ys), and subtracting from_iter(ys) again leaves from_iter(xs).", "quantifier": "all counters including stored zeros, all sequences, all iteration orders of the maps, all builds", "why_tests_cant": "algebraic laws over all counters, hash orders and overflow behaviours", "anchors": ["src/counter/counter.rs::sub", "src/counter/counter.rs::add", "src/counter/counter.rs::extend", "src/counter/counter.rs::from_iter"]}
{"id": "C77", "title": "Laws of the two ended buffer", "statement": "With room for one more element popping undoes pushing at the same end and pushing undoes popping, with nothing dropped; moving k elements from one end to the other rotates the content by k; the two ends are symmetric: on a buffer with the reversed content the mirrored calls return the mirrored results, drop the same values and leave the reversed content.", "quantifier": "every reachable buffer, every k, every history", "why_tests_cant": "the slots used differ at every wrap-around position; symmetry quantifies over pairs of histories", "anchors": ["src/circular_buffer/circular.rs::push_back", "src/circular_buffer/circular.rs::push_front", "src/circular_buffer/circular.rs::pop_back", "src/circular_buffer/circular.rs::pop_front"]}
{"id": "C78", "title": "A union changes exactly two groups", "statement": "After union(x, y) in_union(u, v) is true exactly if it was before, or u was with x and v with y or the other way round (x and y counting as with themselves even if new); contains changes only for x and y. What is together or contained stays so until clear, whatever is called and even if calls panic; elements that are not together become so only through union.", "quantifier": "every reachable disjoint set, all x, y, u, v, all later histories", "why_tests_cant": "quantifies over all pairs and over all later histories", "anchors": ["src/disjoint_set/disjoint_set.rs::union", "src/disjoint_set/disjoint_set.rs::in_union", "src/disjoint_set/disjoint_set.rs::contains"]}
{"id": "C79", "title": "An interrupted counter addition or subtraction leaves no half-made count", "statement": "If a += b or a -= b is interrupted, by a panic of the user's Hash, Eq or Clone or by overflow, then a stays usable and every key has either its old count or the count it would have after the finished operation; the keys changed are exactly those reached, and no zero count appears (additions: with overflow checks). Hence every count lies between its old and its final value.", "quantifier": "all counters, all iteration orders, every point of interruption, by value and by reference", "why_tests_cant": "the point of interruption and the iteration order are arbitrary, the order is random in practice", "anchors": ["src/counter/counter.rs::add_assign", "src/counter/counter.rs::sub_assign"]}
{"id": "C80", "title": "The random iteration order of the maps cannot be observed", "statement": "Running one program of counter calls (new, push, extend, collect, clone, +=, -=, +, -, get, len, ==, counts of most_common) twice, with whatever iteration orders and sort routines, gives the same answers line by line, overflows at the same line or not at all, and ends with equal counters.", "quantifier": "all programs over any number of counters, all iteration orders at every iteration, all key types and builds", "why_tests_cant": "the order depends on a random seed and on the history of the map; a test sees one order", "anchors": ["src/counter/counter.rs::add_assign", "src/counter/counter.rs::sub_assign", "src/counter/counter.rs::most_common", "src/counter/counter.rs::extend"]}
{"id": "C81", "title": "Only content and capacity of a buffer matter", "statement": "Two buffers with the same content and capacity return the same results, panic at the same calls, drop the same values and end with the same content and capacity under every sequence of calls, wherever their elements lie in memory and however they were made. (What can differ is the place where slices() splits the content in two, and the Debug text, see C83.)", "quantifier": "all pairs of reachable buffers, all histories", "why_tests_cant": "every wrap-around position is a different internal state, and all later histories count", "anchors": ["src/circular_buffer/circular.rs::internal_index", "src/circular_buffer/circular.rs::slices", "src/circular_buffer/circular.rs::resize"]}
{"id": "C82", "title": "Intervals can be keys of hash maps", "statement": "Intervals that are ==, and on densely ordered types intervals with the same points, feed the same data to the hasher; if the values feed prefix free data, so do the intervals, hence different intervals feed different data.", "quantifier": "all obtainable intervals over every ordered type, every Hash of the value type", "why_tests_cant": "quantifies over all pairs of intervals and all ways they were computed", "anchors": ["src/interval/interval.rs::Interval", "src/interval/bounds.rs::Bound"]}
{"id": "C83", "title": "What the Debug output of a buffer tells", "statement": "The Debug text of a buffer is CircularBuffer{ start: s, end: e, buf_len: n } with n one more than the capacity, s and e below n and the length equal to the distance from s to e modulo n. So buffers with the same text have the same capacity and length. The text says nothing else about the content: equal buffers can print differently and different buffers can print alike.", "quantifier": "all reachable buffers, all element types", "why_tests_cant": "every wrap-around position prints differently, and telling length and capacity from the text is a claim about pairs of buffers", "anchors": ["src/circular_buffer/circular.rs::fmt"]}
{"id": "C84", "title": "Element types that may not be left uninitialised have no buffers", "statement": "If the toolchain refuses mem::uninitialized for the element type (String, Box and references on toolchains since Rust 1.48), new, with_capacity, from_iter, from_iter over references and From<Vec> never return a buffer, so no later call can go wrong halfway; for every other element type each of them returns a buffer whenever the allocation is small enough. (The one exception: with_capacity(usize::MAX) without overflow checks, which allocates no slot, see C21.)", "quantifier": "all element types, all capacities, all items, all build configurations", "why_tests_cant": "depends on the toolchain and the element type; tests run one toolchain and a few types", "anchors": ["src/circular_buffer/circular.rs::with_capacity", "src/circular_buffer/circular.rs::from_iter", "src/circular_buffer/circular.rs::from"]}
{"id": "C85", "title": "A refused construction releases its items and is never undefined behaviour", "statement": "If a constructor cannot get memory for the items plus the spare slot, or the toolchain or the caller's iterator panics, it ends in an ordinary panic; From<Vec> then drops every item of the vector exactly once, and on success it drops none.", "quantifier": "all element types, all vectors and item sequences, all iterators and clone functions, all targets and build configurations", "why_tests_cant": "a refusal needs a vector of isize::MAX bytes; no test allocates one", "anchors": ["src/circular_buffer/circular.rs::from", "src/circular_buffer/circular.rs::from_iter", "src/circular_buffer/circular.rs::with_capacity"]}
{"id": "C86", "title": "A panicking comparison inside merge, intersection or span leaves the interval well formed", "statement": "If the element type's comparison panics inside merge, intersection or span and the panic is caught, the interval is well formed; for span and merge it lies between the old interval and the result the call would have had, for intersection between that result and the old interval. If no comparison panics the result is the usual one.", "quantifier": "all pairs of obtainable intervals over any linear order, every comparison at which the panic may strike", "why_tests_cant": "needs a comparison that panics at each possible point, for every relative position of the bounds", "anchors": ["src/interval/interval.rs::merge", "src/interval/interval.rs::intersection", "src/interval/interval.rs::span", "src/interval/interval.rs::fix_after_modification"]}
{"id": "C87", "title": "A disjoint set is determined by its in_union answers", "statement": "If two disjoint sets, built in any ways, give the same answer to in_union for every pair, then every later sequence of calls (unions, clear, extend, iteration, panicking keys included) answers alike on both; only the order in which iteration lists groups and their elements may differ. contains(x) is in_union(x, x).", "quantifier": "all pairs of call histories from all constructors, all later histories, all hash orders, all element types", "why_tests_cant": "quantifies over pairs of internal forests with different shapes, ranks and ids, and over all continuations", "anchors": ["src/disjoint_set/disjoint_set.rs::in_union", "src/disjoint_set/disjoint_set.rs::union", "src/disjoint_set/disjoint_set.rs::into_iter"]}
{"id": "C88", "title": "Counts are right modulo the size of usize in every build", "statement": "A Counter made by counting items and adding counters holds exactly the keys that were counted, each with its true count modulo the number of values of usize; in builds with overflow checks the count is the true one. Without overflow checks no such call panics unless the user's iterator does. A stored zero appears exactly when the true count is a positive multiple of the number of values of usize.", "quantifier": "all ways to make a counter with new, from_iter, push, extend and the four additions, all item types, pointer widths, iteration orders, interrupted iterators, both overflow settings", "why_tests_cant": "the wrap-around needs more items than a test can feed on 64 bits, and the claim covers every nesting of additions", "anchors": ["src/counter/counter.rs::push", "src/counter/counter.rs::extend", "src/counter/counter.rs::add", "src/counter/counter.rs::add_assign"]}
{"id": "C89", "title": "Which bound set operations keep when bounds compare equal", "statement": "For value types that compare by part of their data, span, merge and intersection keep bounds of the operands unchanged. Up to comparison they do what they do on a type where equal values are the same. On a tie, into_span and into_merged keep the lower bound of self and the upper bound of the argument; into_intersection keeps the lower bound of the argument and the upper bound of self; the forms in place keep both of self. So the two forms give the same interval exactly if the upper bounds (span) or lower bounds (intersection) do not tie or are the same.", "quantifier": "all value types, all keys into a linear order, all pairs of non-empty well-formed intervals (the part up to comparison: all pairs of intervals)", "why_tests_cant": "tests compare with ==, which cannot see which of two equal bounds was kept, and the claim ranges over all types and all ties", "anchors": ["src/interval/interval.rs::into_span", "src/interval/interval.rs::span", "src/interval/interval.rs::into_merged", "src/interval/interval.rs::merge", "src/interval/interval.rs::into_intersection", "src/interval/interval.rs::intersection"]}
{"id": "C90", "title": "Which item a counter keeps when items compare equal", "statement": "For item types that compare by part of their data, a Counter behaves up to comparison as it does on a type where equal items are the same. Counting (push, extend, from_iter) keeps the first of the items that compare equal. a + b and a += b keep the items of a and take from b only those a lacks, so a + b and b + a hold the same items exactly if the operands agree on the items they share. a - b and a -= b keep items of a only. The forms that take references store clones; most_common lists clones of the stored items, into_most_common the stored items.", "quantifier": "all item types, all keys, all counters, iteration orders, clones that compare equal, interrupted iterators", "why_tests_cant": "tests compare with ==, which cannot see which of two equal items was kept, and the claim ranges over all types, counters and hash orders", "anchors": ["src/counter/counter.rs::push", "src/counter/counter.rs::extend", "src/counter/counter.rs::from_iter", "src/counter/counter.rs::add", "src/counter/counter.rs::add_assign", "src/counter/counter.rs::sub", "src/counter/counter.rs::sub_assign", "src/counter/counter.rs::most_common", "src/counter/counter.rs::into_most_common"]}
{"id": "C91", "title": "Which element a disjoint set keeps when elements compare equal", "statement": "For element types that compare by part of their data, no answer of a DisjointSet depends on which of two elements that compare equal was passed. Iteration shows, for every class of elements that compare equal, exactly one: the first one passed to make_set, union, extend or from_iter since the last clear. It stays until clear; no later call replaces it. The forms that take references store clones.", "quantifier": "all element types, all keys, all constructors and histories of calls, hash orders, panicking keys and iterators", "why_tests_cant": "tests use elements whose equality is identity, and the claim ranges over all types and histories", "anchors": ["src/disjoint_set/disjoint_set.rs::make_set", "src/disjoint_set/disjoint_set.rs::union", "src/disjoint_set/disjoint_set.rs::extend", "src/disjoint_set/disjoint_set.rs::from_iter", "src/disjoint_set/disjoint_set.rs::into_iter", "src/disjoint_set/disjoint_set.rs::clear"]}
{"id": "C92", "title": "Merging a collection of intervals has one result", "statement": "Merging pairs of intervals of a collection until no pair can be merged always ends, after fewer steps than there are intervals, and the result does not depend on which pairs were merged in which order (up to the order of the collection). No value is gained or lost, and the resulting intervals are disjoint. On densely ordered types they are the pieces of the union: two values are in one interval exactly if everything between them is in the original collection. For a collection sorted by lower bounds one pass, merging each interval with the last result, is enough.", "quantifier": "all finite collections of obtainable intervals over every ordered type, all orders of merging", "why_tests_cant": "the number of merge orders grows faster than exponentially with the size of the collection, and the claim is for all collections of all ordered types", "anchors": ["src/interval/interval.rs::into_merged", "src/interval/interval.rs::merge", "src/interval/interval.rs::can_be_merged", "src/interval/bounds.rs::LowerBound::cmp"]}
{"id": "C93", "title": "Interval arithmetic encloses the arithmetic of its values", "statement": "For element operators that keep or reverse the order but may round, saturate or panic: an operator on an interval panics exactly if the element operator panics on a bound, and otherwise the result contains the image of every value of the interval that is not also the image of an open bound. A chain of operators (+, -, *, /, their assigning forms, negation) on a closed interval gives exactly the closed interval between the results for its two bounds, and it contains the result for every value. For integers with overflow checks a chain that returns on a closed interval returns on every value of it; with wrapping arithmetic values are lost.", "quantifier": "all intervals over all ordered types, all order keeping or reversing operators, all chains of operators of any length, integers of every width", "why_tests_cant": "unboundedly long chains of operators over every element type and every operator that is monotone or antitone", "anchors": ["src/interval/interval_math.rs::Add", "src/interval/interval_math.rs::MulAssign", "src/interval/interval_math.rs::Neg", "src/interval/interval.rs::fix_after_modification"]}
{"id": "C94", "title": "A wrong Hash or Eq cannot corrupt a disjoint set", "statement": "For element types whose Hash or Eq keeps none of its promises (NaN that does not equal itself, keys changed behind a Cell, Hash and Eq that disagree) a DisjointSet stays consistent. Every call answers as if each added value that the table did not find were a new element of its own and each other value the element found: len is the number of values stored, iteration shows each of them exactly once, and two are in one group exactly if unions connect them. Nothing panics but the user's code and requests for too much memory: no index is out of bounds, no search runs out of stack.", "quantifier": "all element types, all histories of calls, every answer the table may give to every lookup, all hash orders", "why_tests_cant": "what the table finds for a value with a wrong Eq is arbitrary; the number of ways grows with every lookup", "anchors": ["src/disjoint_set/disjoint_set.rs::make_or_get_set", "src/disjoint_set/disjoint_set.rs::union", "src/disjoint_set/disjoint_set.rs::in_union", "src/disjoint_set/disjoint_set.rs::build_sets"]}
{"id": "C95", "title": "A wrong Hash or Eq cannot lose counts", "statement": "For item types whose Hash or Eq keeps none of its promises (NaN, keys changed behind a Cell) the entry an item is counted in is arbitrary, but the sum of all counts of a Counter is not. push, extend, collecting and adding raise it by exactly what they were given (in builds without overflow checks modulo the size of usize); subtracting lowers it by at most what it was given and never raises it. So after any history, panics caught, the sum is between what was added minus what was subtracted and what was added. A call stopped by an overflow has counted exactly a first part of its input. Every stored item was handed over, no stored count is zero, most_common and into_most_common list all entries, larger counts first. Nothing panics but the user's code and overflow checks. Only the conversion from a HashMap can lose counts, and it never invents any.", "quantifier": "all item types, all histories of calls by value and by reference, every answer the table may give to every lookup, all hash orders, all builds", "why_tests_cant": "what the table finds for an item with a wrong Eq is arbitrary; the number of ways grows with every lookup", "anchors": ["src/counter/counter.rs::push", "src/counter/counter.rs::extend", "src/counter/counter.rs::add_assign", "src/counter/counter.rs::sub_assign", "src/counter/counter.rs::from_iter", "src/counter/counter.rs::most_common"]}
{"id": "C96", "title": "A wrong Ord cannot break the set operations", "statement": "For value types whose Ord, PartialOrd and PartialEq keep none of their promises (answers that contradict each other, change from call to call, or panic) merge, intersection and span never panic by themselves, and the interval they leave, also when the value type panics half way, is empty or has bounds that one of the two intervals had. into_merged, into_intersection and into_span can panic only in the constructor, and only after the value type itself called the chosen bounds wrongly ordered; no unwrap fails. A refused merge changes nothing and hands both intervals back. fix_after_modification keeps the bounds, exchanges them, or leaves the empty interval. contains_val, contains_interval, can_be_merged and intersects always answer. If cmp is a linear order and >, == say yes only where cmp does (they may say no, as for NaN), span and intersection are exact on well-formed intervals and merge errs only towards joining. If == is coarser than cmp (the two zeros under total_cmp), into_intersection panics where intersection gives the right answer.", "quantifier": "all value types, all intervals, every sequence of answers (including panics) to the comparisons asked", "why_tests_cant": "the answers of a wrong comparison are arbitrary at every question; a test fixes one comparison", "anchors": ["src/interval/interval.rs::merge", "src/interval/interval.rs::intersection", "src/interval/interval.rs::span", "src/interval/interval.rs::into_merged", "src/interval/interval.rs::into_intersection", "src/interval/interval.rs::into_span", "src/interval/interval.rs::fix_after_modification"]}
{"id": "C97", "title": "Documented costs of the counter", "statement": "As the module documentation says, k being the number of different items: counting one item (push) searches the table once; making a counter of n items, and extending one by n items, takes n searches; += and -= take one search per entry of the other counter; items are cloned only where they are given by reference, once per search. A counter of n items has one entry per different item. The most common elements are calculated in O(k).", "quantifier": "all items, counters, iteration orders, iterators and key types that panic; all sorting algorithms that compare keys", "why_tests_cant": "costs depend on the size of the input and the iteration order without bound; a test measures finitely many", "anchors": ["src/counter/mod.rs", "src/counter/counter.rs::push", "src/counter/counter.rs::from_iter", "src/counter/counter.rs::extend", "src/counter/counter.rs::add_assign", "src/counter/counter.rs::sub_assign", "src/counter/counter.rs::most_common", "src/counter/counter.rs::into_most_common"]}
{"id": "C98", "title": "What the Debug output of intervals, counters and disjoint sets tells", "statement": "If the Debug texts of the values can be told apart (also with more text following), then: intervals and bounds have the same Debug text exactly if they are the same; counters with the same text have the same counts; disjoint sets with the same text have the same elements and answer every later call alike. The texts of counters and disjoint sets show more than what counts: one counter has different texts in different iteration orders, asking in_union can change the text of a disjoint set, and the same partition made in another order prints differently.", "quantifier": "all value types with distinguishable texts, all intervals and bounds, all counters, all histories of disjoint sets, all iteration orders", "why_tests_cant": "that two different values never print alike is a statement about all pairs of values; a test compares a few", "anchors": ["src/interval/interval.rs::Interval (derive Debug)", "src/interval/bounds.rs::Bound (derive Debug)", "src/counter/counter.rs::Counter (derive Debug)", "src/disjoint_set/disjoint_set.rs::DisjointSet (derive Debug)"]}
{"id": "C99", "title": "Capacity and memory of the counter", "statement": "Capacities and size hints never change what is counted; a call that is refused memory panics having counted, added or subtracted a first part of its items, each entirely, and an announcement that is refused panics before the iterator is asked for anything. As documented, a counter made with_capacity(n) holds n different items without another request for memory, and nothing is allocated for n = 0; counting and adding leave the memory alone exactly if the announced items and the different items fit. a + b keeps the memory of a and takes more only if the sum does not fit; a - b takes room for at most one more item than a holds. Memory is never given back. As the module documentation says, the memory is O(k), k being the number of different items.", "quantifier": "all allocators that keep the documented contract of HashMap (also refusing any request at any time), all counters, items, hints and sequences of calls", "why_tests_cant": "depends on the allocator and on unbounded sizes and hints; tests run with one allocator that never refuses", "anchors": ["src/counter/mod.rs", "src/counter/counter.rs::with_capacity", "src/counter/counter.rs::with_capacity_and_hasher", "src/counter/counter.rs::from_iter", "src/counter/counter.rs::extend", "src/counter/counter.rs::push", "src/counter/counter.rs::add_assign", "src/counter/counter.rs::sub_assign", "src/counter/counter.rs::add", "src/counter/counter.rs::sub"]}
{"id": "C100", "title": "Capacity and memory of the disjoint set", "statement": "Capacities and size hints never change what a disjoint set answers. As documented, a set made with_capacity(n) holds n elements without another request for memory and nothing is allocated for n = 0; after reserve(n) that many more elements fit in the map and in the vector. A call leaves the memory alone exactly if the announced elements and the elements there are in the end fit. Memory is never given back, not even by clear. A call that is refused memory panics, and the set then is what it would be if the key without room had panicked: every later call answers accordingly. As the module documentation says, the memory is O(n), n being the number of elements.", "quantifier": "all allocators that keep the documented contracts of HashMap and Vec (also refusing any request at any time), all histories of calls, all hints", "why_tests_cant": "depends on the allocator and on unbounded sizes and hints; tests run with one allocator that never refuses", "anchors": ["src/disjoint_set/mod.rs", "src/disjoint_set/disjoint_set.rs::with_capacity", "src/disjoint_set/disjoint_set.rs::with_capacity_and_hasher", "src/disjoint_set/disjoint_set.rs::reserve", "src/disjoint_set/disjoint_set.rs::make_or_get_set", "src/disjoint_set/disjoint_set.rs::from_iter", "src/disjoint_set/disjoint_set.rs::extend", "src/disjoint_set/disjoint_set.rs::clear"]}
{"id": "C101", "title": "Documented costs of the circular buffer", "statement": "As the module documentation says, pushing at either end, popping at either end and accessing the n-th element take constant time: n such calls take at most 20*n steps, from every state, whatever the capacity. Every other call takes constant time for each element it looks at (clear, reverse, iter: the elements there are; extend: the items given; drain: the items taken; resize: elements and new capacity; linearize: the capacity; append: the elements moved). No memory is allocated while the buffer is used: with_capacity(n) asks once for n+1 places, resize(m) once for m+1 places, no other call asks for memory, and the number of places is always the capacity plus one. The counts leave nothing out: every history of calls takes at least one step for each value it drops and for each value it hands out, so the times of clear, iter and drain are proportional to the number of elements in both directions.", "quantifier": "all element types (also with panicking destructors and clones), all histories of calls, all reachable buffers; the constant-time claim also for unreachable states", "why_tests_cant": "a cost bound speaks about all sizes; tests run on small buffers and measure neither steps nor allocations", "anchors": ["src/circular_buffer/mod.rs", "src/circular_buffer/circular.rs::with_capacity", "src/circular_buffer/circular.rs::resize", "src/circular_buffer/circular.rs::push_back", "src/circular_buffer/circular.rs::push_front", "src/circular_buffer/circular.rs::pop_back", "src/circular_buffer/circular.rs::pop_front", "src/circular_buffer/circular.rs::index", "src/circular_buffer/circular.rs::extend", "src/circular_buffer/circular.rs::append", "src/circular_buffer/circular.rs::clear", "src/circular_buffer/circular.rs::linearize", "src/circular_buffer/circular.rs::reverse"]}
{"id": "C102", "title": "What the {:#?} output of intervals, counters and disjoint sets tells", "statement": "The alternate Debug form tells as much as the usual one. If the {:#?} texts of the values can be told apart (also with more text following, also where they take several lines), then: intervals and bounds have the same {:#?} text exactly if they are the same; counters with the same text have the same counts; disjoint sets with the same text have the same elements and answer every later call alike. If the {:?} texts of the values can be told apart too, two intervals, counters or disjoint sets print alike with {:#?} exactly if they print alike with {:?}.", "quantifier": "all value types with distinguishable texts, all intervals and bounds, all counters, all histories of disjoint sets, all iteration orders", "why_tests_cant": "that two different values never print alike, whatever line breaks the texts of the values contain, is a statement about all pairs of values; a test compares a few", "anchors": ["src/interval/interval.rs::Interval (derive Debug)", "src/interval/bounds.rs::Bound (derive Debug)", "src/counter/counter.rs::Counter (derive Debug)", "src/disjoint_set/disjoint_set.rs::DisjointSet (derive Debug)"]}
{"id": "C103", "title": "A panic of Hash during a rehash costs whole counts, never wrong ones", "statement": "If the user's Hash panics while the table of a counter is rehashed to make room (push, extend, += and -=), entries may be lost, at worst all. Nothing else goes wrong: whatever calls follow and whatever panics end them, the count of every key is what these calls make of that key alone, where a loss forgets the key as a whole. A key that no rehash lost has exactly the count it would have had without any loss. The counter stays sound, each call returns or panics as its own loop does, and with overflow checks no count is ever larger than without the losses, and a history that overflows nowhere without losses overflows nowhere with them.", "quantifier": "all key types, all counters, all histories of push, extend, += and -=, each ended by any panic, any entries lost each time, builds with and without overflow checks", "why_tests_cant": "the loss needs a Hash that panics in the middle of a reorganisation of the table, at a moment the table chooses; and the claim is about all later histories", "anchors": ["src/counter/counter.rs::push", "src/counter/counter.rs::extend", "src/counter/counter.rs::add_assign", "src/counter/counter.rs::sub_assign"]}
{"id": "C104", "title": "Intersection and span of a collection", "statement": "Intersecting the intervals of a collection one after the other never panics and gives the greatest interval contained in all of them, with exactly the common values as members; in the same way the span is the least interval that contains all, on densely ordered types exactly the values between two values of the collection. The results do not depend on the order of the collection nor on repetitions. The intersection is empty exactly if two of the intervals have an empty intersection (Helly's theorem): intervals that pairwise intersect have a common part, on densely ordered types a common value.", "quantifier": "all non-empty finite collections of obtainable intervals over every ordered type, by value and in place", "why_tests_cant": "a statement about collections of every size and order; tests intersect two intervals", "anchors": ["src/interval/interval.rs::into_intersection", "src/interval/interval.rs::intersection", "src/interval/interval.rs::intersects", "src/interval/interval.rs::into_span", "src/interval/interval.rs::span"]}
{"id": "C105", "title": "Spanning forests and Kruskal's algorithm", "statement": "A client that goes through the edges of a graph, and picks an edge and joins its ends with union if in_union says they are not connected yet, picks a spanning forest: the picked edges connect exactly what all edges connect, none of them can be left out, and no selection of edges connecting the same is smaller. Afterwards in_union tells which nodes the whole graph connects. If the edges come sorted by weight, no other selection connecting the same has fewer edges above any weight, nor a smaller total weight. Nothing panics. Loops have to be left out, or their element added before: in_union is false of an unknown element and itself, so such a loop is picked.", "quantifier": "all graphs over every element type (also with parallel edges), all histories of the disjoint set before, all weights in a linear order, all competing selections of edges", "why_tests_cant": "optimality compares with every other selection of edges of every graph", "anchors": ["src/disjoint_set/disjoint_set.rs::union", "src/disjoint_set/disjoint_set.rs::in_union"]}
{"id": "C106", "title": "Statistics of a sliding window", "statement": "A client that keeps the latest n items of a stream in a circular buffer, and their counts in a counter (taking the oldest item out with pop_front and subtracting it when the buffer is full, then push and push_back), never panics, and at every moment its counter equals the counter of exactly the latest n items: every count, the absence of items that left the window, and equality with a freshly built counter. The buffer drops nothing on its own. most_common of the counter starts with a most frequent item of the window. The span of the buffered items, each as a single interval, is the closed interval from the least to the greatest of the latest n items.", "quantifier": "all streams of every length, all capacities from 1 on that can be allocated, all item types, all iteration orders of the maps and all admissible sort results", "why_tests_cant": "the statement is about the interplay of three collections after streams of any length", "anchors": ["src/circular_buffer/circular.rs::push_back", "src/circular_buffer/circular.rs::pop_front", "src/circular_buffer/circular.rs::is_full", "src/counter/counter.rs::push", "src/counter/counter.rs::sub_assign", "src/counter/counter.rs::most_common", "src/interval/interval.rs::into_span", "src/interval/interval.rs::single"]}
{"id": "C107", "title": "Sorted tables of intervals", "statement": "In a vector of non-empty intervals, each of them `<` the next, a binary search that compares with `<` and `>` always works. With a value it finds the entry that contains the value, which is the only one; if there is none, it finds the place between the entries that are `<` the value and the entries that are `>` the value. With an interval it finds an entry that intersects the interval; if there is none, it finds the only place where inserting the interval keeps the table sorted. It never indexes out of bounds and probes at most log2(n) + 1 entries. The entries that intersect a query are neighbours, and all of them between two others lie inside the query.", "quantifier": "all sorted tables of every length over every ordered type, all values and all non-empty query intervals", "why_tests_cant": "needs that the comparisons of the crate are monotone along every table and complete (neither `<` nor `>` means contained or intersecting), with every combination of open and closed bounds and equal bounds, for tables of every length", "anchors": ["src/interval/interval_cmp.rs", "src/interval/interval.rs::intersects", "src/interval/interval.rs::contains_interval"]}
{"id": "C108", "title": "Multiset operations from + and -", "statement": "For counters without zero counts, a - (a - b) is the intersection (the smaller count of every key, only keys of both), (a - b) + b is the union (the larger count), and (a - b) + (b - a) the symmetric difference, which has no entries exactly if a == b; none of these overflows. (a - b) + (a - (a - b)) == a. a - b has no entries exactly if b contains everything a contains, each key at least as often. So counting a sequence of needed items and one of available items and subtracting gives exactly what is missing: further items suffice if and only if they cover the difference.", "quantifier": "all counters without zero counts, all iteration orders of the maps, all sequences whose counts fit in usize", "why_tests_cant": "identities between composed operations over every pair of multisets, including that no intermediate sum can overflow and that exhausted keys vanish at every step", "anchors": ["src/counter/counter.rs::sub_assign", "src/counter/counter.rs::sub", "src/counter/counter.rs::add_assign", "src/counter/counter.rs::add"]}
{"id": "C109", "title": "The most common entries are the best choice", "statement": "The first m entries of most_common have the greatest total count that any m different keys have. An item that makes up more than a fraction 1/(m+1) of the counted sequence is among the first m entries with its exact count; in particular a majority item is the first entry.", "quantifier": "all counters, all m, all choices of keys, all counted sequences, all iteration orders and all unstable sorts", "why_tests_cant": "a maximum over every choice of m keys for every counter, independent of how ties are sorted", "anchors": ["src/counter/counter.rs::most_common", "src/counter/counter.rs::into_most_common"]}
{"id": "C110", "title": "Equations between two-valued unknowns and two-colourings", "statement": "A client that keeps two elements per unknown (the unknown and its opposite), adds both before it asks, and unites them for every accepted equation 'equal' or 'different', accepts an equation exactly if it does not contradict the equations accepted before. So all equations are accepted exactly if they have a common solution; with 'different' for every edge of a graph, exactly if the graph is bipartite. Afterwards in_union tells exactly which equalities and differences follow from the accepted equations.", "quantifier": "all sequences of equations over every type of unknowns (twice as many elements as unknowns fitting in usize), all pairs of unknowns", "why_tests_cant": "completeness: whatever in_union does not connect is refuted by some assignment, out of exponentially many, for every sequence of equations", "anchors": ["src/disjoint_set/disjoint_set.rs::union", "src/disjoint_set/disjoint_set.rs::in_union", "src/disjoint_set/disjoint_set.rs::extend"]}
{"id": "C111", "title": "Counting in shards", "statement": "Cutting the items into parts, counting every part by itself and adding the counters up, in whatever shape and order, by value or by reference, ends exactly as counting all items at once does: with an equal counter that holds the true count of every item, or with a panic if overflow checks are on and some total does not fit in usize. Without overflow checks it never panics and holds the totals modulo the number of values of usize.", "quantifier": "all trees of parts and merges, all lists of items in the parts, all iteration orders of all intermediate counters, both settings of overflow checks, all widths of usize", "why_tests_cant": "independence of the result from the shape of the tree, from the order of the items and from the iteration orders of the hash maps, for unboundedly many of them; totals around the limit of usize cannot be reached by a test", "anchors": ["src/counter/counter.rs::from_iter", "src/counter/counter.rs::add", "src/counter/counter.rs::add_assign"]}
{"id": "C112", "title": "Growing costs a constant per element, on average", "statement": "Over any sequence of calls, the elements that the map of a counter, and the map and the vector of a disjoint set, have moved because they had to grow (or to tidy up after removals) are at most as many as the places they end up with, for a counter plus the entries subtracted from it; and they take memory from the allocator a logarithmic number of times. So the documented O(1) of adding an element holds on average, including calls that panic and requests for memory that are refused.", "quantifier": "all sequences of calls, all items and size hints, all behaviours of a standard library whose collections at least double when they grow (or tidy up in place when half of the room is enough), all patterns of refused requests and of places lost to removed keys", "why_tests_cant": "amortised bound over all histories and all growth policies of the standard library; a test sees one policy and one history", "anchors": ["src/counter/counter.rs::push", "src/counter/counter.rs::extend", "src/counter/counter.rs::sub_assign", "src/disjoint_set/disjoint_set.rs::make_set", "src/disjoint_set/disjoint_set.rs::extend"]}
{"id": "C113", "title": "Memory of an iteration over the groups", "statement": "Iterating over the groups of a disjoint set builds a local map of vectors. If memory is refused on the way, the iteration panics and the set is as if in_union(x, x) had been asked for the elements met so far: all answers are unchanged, and iterating again gives the same groups in the same order, and leaves the same set, as if nothing had been refused. If nothing is refused, memory has no influence on the result. At every moment the local map has room for at most a constant times the number of groups and the vectors for at most a constant times the number of elements and groups, so that an iteration takes O(n) memory, and if collections double when they grow, it moves O(n) elements.", "quantifier": "all histories of calls, all iteration orders of the set's map and of the local map, all patterns of refused requests (a separate allocator behaviour for the map and for every vector), all moments of the iteration", "why_tests_cant": "a refused request at every possible moment under every iteration order of two hash maps; the memory bound is for sets of every size", "anchors": ["src/disjoint_set/disjoint_set.rs::build_sets", "src/disjoint_set/disjoint_set.rs::into_iter"]}
{"id": "C114", "title": "Scheduling intervals", "statement": "Going through non-empty intervals sorted by upper bounds and taking each that does not intersect the one taken last chooses intervals no two of which intersect, and no other such choice is larger; on a dense type it is also the smallest number of values that meet every interval. Going through intervals sorted by lower bounds and putting each into the first room whose last interval it does not intersect, or else into a new room, distributes all intervals over the rooms; no two intervals in a room intersect, no distribution needs fewer rooms, and on a dense type the number of rooms is the largest number of intervals with a common value.", "quantifier": "all collections of non-empty obtainable intervals, over every linearly ordered type, with every combination of closed and open bounds", "why_tests_cant": "optimality compares with every other choice and every other distribution of every collection", "anchors": ["src/interval/interval.rs::intersects", "src/interval/interval.rs::bounds", "src/interval/bounds.rs::cmp"]}
{"id": "C115", "title": "Grouping intervals with a disjoint set", "statement": "If non-empty intervals are put into a disjoint set and all pairs that can be merged are united, then the spans of the groups are exactly the intervals that merging the collection leads to, in whatever order it is merged; and two intervals are in one group exactly if they lie in the same merged interval. Nothing panics.", "quantifier": "all collections of non-empty obtainable intervals over every linearly ordered type (with duplicates), all hash orders of the two maps of an iteration, all orders of merging", "why_tests_cant": "two containers of the crate have to agree for every collection, every hash order and every merging order", "anchors": ["src/interval/interval.rs::can_be_merged", "src/interval/interval.rs::into_span", "src/interval/interval.rs::into_merged", "src/disjoint_set/disjoint_set.rs::union", "src/disjoint_set/disjoint_set.rs::into_iter"]}
{"id": "C116", "title": "Greatest of a sliding window", "statement": "A client that keeps in a buffer of capacity w those of the latest items no later item exceeds (popping expired items from the front and smaller ones from the back before pushing) reports with every item the greatest of the latest w items; nothing panics. The buffer then holds exactly the items of the window that exceed all later ones, oldest first, and every item of the stream is either still in the buffer or was removed exactly once, so a stream of n items costs at most n removals.", "quantifier": "all streams over every linearly ordered type, all capacities from 1 on, word sizes and build profiles", "why_tests_cant": "relates the answer to every window of every stream; the buffer wraps around and is used from both ends in data-dependent order", "anchors": ["src/circular_buffer/circular.rs::first", "src/circular_buffer/circular.rs::last", "src/circular_buffer/circular.rs::pop_front", "src/circular_buffer/circular.rs::pop_back", "src/circular_buffer/circular.rs::push_back"]}
{"id": "C117", "title": "The cost of one search in the worst case", "statement": "No in_union and no union makes more than 2 (log2(len) + 1) calls of the root search. For every n there are histories of at most n elements after which a single in_union makes at least log2 n + 2 such calls, so the small cost of C69 holds only on average; and histories that reach the rank log2 n, so the bound of C60 cannot be lowered.", "quantifier": "all reachable states and elements; all n up to usize::MAX; all word sizes and build profiles", "why_tests_cant": "a statement about every state and every size; the worst case history has 2^k elements", "anchors": ["src/disjoint_set/disjoint_set.rs::find_with_path_compression", "src/disjoint_set/disjoint_set.rs::union", "src/disjoint_set/disjoint_set.rs::in_union"]}
{"id": "C118", "title": "A set of values kept as intervals", "statement": "A client keeps a set of values as a list of non-empty intervals no two of which can be merged. Adding an interval by one pass of into_merged, and removing one by cutting every interval at the removed bounds (from_bounds with the closed flags flipped), never panics, keeps the list in this form, and changes the set by exactly the values of the interval. After any calls contains_val over the list finds a value exactly if the calls, read in order, leave it in the set, and there are at most as many intervals as calls. On densely ordered types the list is determined by the values, up to its order, and no other collection of intervals with these values is shorter.", "quantifier": "all sequences of additions and removals of obtainable intervals over every ordered type, starting from any such list; density only where stated", "why_tests_cant": "all histories, all combinations of open and closed bounds and of positions of the bounds relative to each other", "anchors": ["src/interval/interval.rs::into_merged", "src/interval/interval.rs::from_bounds", "src/interval/interval.rs::into_bounds", "src/interval/interval.rs::contains_val", "src/interval/bounds.rs::LowerBound::cmp", "src/interval/bounds.rs::UpperBound::cmp"]}
{"id": "C119", "title": "Rearrangements of a pattern are found with a buffer and two counters", "statement": "A client slides a circular buffer as long as the pattern over a text, keeps a counter of the buffered items (adding what comes, subtracting what leaves) and reports a place whenever this counter equals the counter of the pattern. It never panics and reports, in ascending order, exactly the places at which the text goes on with the items of the pattern in some order.", "quantifier": "all non-empty patterns that fit into a buffer, all texts, all item types with a lawful Eq/Hash and no panicking drop, all word sizes and build profiles", "why_tests_cant": "all patterns and texts; a counter left with a zero entry, or a buffer that drops an item that stays counted, spoils every later comparison", "anchors": ["src/circular_buffer/circular.rs::is_full", "src/circular_buffer/circular.rs::pop_front", "src/circular_buffer/circular.rs::push_back", "src/counter/counter.rs::push", "src/counter/counter.rs::sub_assign", "src/counter/counter.rs::Counter (derive PartialEq)"]}
{"id": "C120", "title": "A circular buffer as the queue of a breadth first search", "statement": "A client searches a graph breadth first with a circular buffer as the queue and a map of distances. If the graph has at most n + 1 vertices and the buffer the capacity n > 0, nothing is ever overwritten, the search ends after at most one round per vertex, never panics, and the map then holds exactly the vertices that can be reached from the start, each with the length of a shortest walk. With a smaller capacity vertices may be lost.", "quantifier": "all finite graphs (given by lists of neighbours, with loops and repeated edges), all start vertices, all vertex types, all word sizes and build profiles", "why_tests_cant": "all graphs; a queue that overwrites, or returns items in another order, gives wrong distances only on certain shapes", "anchors": ["src/circular_buffer/circular.rs::push_back", "src/circular_buffer/circular.rs::pop_front", "src/circular_buffer/circular.rs::with_capacity"]}
{"id": "C121", "title": "When two elements become connected", "statement": "A client goes through edges in the order of their weights, unites the ends of each and asks after each union whether x and y are in the same set. The edge at which it stops has the least weight t such that the edges of weight at most t connect x with y; it stops exactly if all edges together connect them. The edges that C105 picks connect, for every t, with those of weight at most t just what all edges of weight at most t connect, so the forest holds a best way between any two elements.", "quantifier": "all reached states, all lists of edges sorted by any weights in a linear order (loops and repeated edges allowed), all x and y not connected before, all thresholds", "why_tests_cant": "all graphs and thresholds; a union that forgets a connection or an answer that comes too early gives a wrong edge only on certain shapes", "anchors": ["src/disjoint_set/disjoint_set.rs::union", "src/disjoint_set/disjoint_set.rs::in_union"]}
{"id": "C122", "title": "Memory of conversions from maps and of most_common", "statement": "Counter::from(map) and Counter::from(&map) ask for memory once, for as many entries as the map has (not at all for an empty map), so the new counter has memory that fits its entries whatever memory the map had; most_common() and into_most_common() likewise ask once for a vector that fits the entries. If the request is refused they panic before anything is copied; otherwise they panic only if the user's Clone does.", "quantifier": "all allocators that keep the documented contract (also refusing any request), all maps and counters, all iteration orders, a Clone that panics after any number of entries", "why_tests_cant": "depends on the allocator; tests run with one that never refuses, and do not see how much was asked for", "anchors": ["src/counter/counter.rs::from", "src/counter/counter.rs::most_common", "src/counter/counter.rs::into_most_common"]}
{"id": "C123", "title": "A buffer as a queue between producers and consumers", "statement": "However push_back, extend, pop_front, drain and resize take turns, elements leave a buffer in the order in which they came: those that have left, each handed to a consumer or dropped, followed by those still there, are the old content followed by everything handed in. So consumers never get an element twice or out of order, and an element is lost only after all older ones have left. Without resize nothing is lost exactly if an unbounded queue would never hold more than capacity() elements; then consumers get what that queue would hand out.", "quantifier": "all reachable buffers, all capacities (also 0), all finite interleavings of calls, all elements whose destructors do not panic", "why_tests_cant": "ranges over all interleavings of calls of any length; order and loss depend on where the content wraps around at each call", "anchors": ["src/circular_buffer/circular.rs::push_back", "src/circular_buffer/circular.rs::pop_front", "src/circular_buffer/circular.rs::extend", "src/circular_buffer/circular.rs::drain", "src/circular_buffer/circular.rs::resize"]}
{"id": "C124", "title": "Iterator methods beyond next and next_back", "statement": "iter() and iter_mut() behave like an iterator over the content front to back under any sequence of next, next_back, nth, nth_back and size_hint, although they are made of two slices: size_hint is exact, and afterwards count, last, fold and rfold see exactly what is left. drain().nth(n) drops the first n elements and returns the next one, drain().count() and drain().last() empty the buffer; if a destructor panics, the elements behind stay. The body of a for loop over drain() gets the first elements up to the one for which it leaves the loop or panics; all behind that one stay in the buffer, in order.", "quantifier": "all reachable buffers (also huge ones of zero-sized elements), all sequences of iterator calls, all loop bodies, which may depend on what they have seen, leave the loop or panic anywhere", "why_tests_cant": "the iterators change from one slice to the other at a place that depends on the history of the buffer and on the calls from both ends; exits and panics can happen at every element", "anchors": ["src/circular_buffer/iter.rs::Iter", "src/circular_buffer/iter.rs::IterMut", "src/circular_buffer/iter.rs::Drain", "src/circular_buffer/circular.rs::iter", "src/circular_buffer/circular.rs::iter_mut", "src/circular_buffer/circular.rs::drain"]}
{"id": "C125", "title": "Editing the elements in place through slices_mut and linearize", "statement": "Code that gets the slices of slices_mut() or the slice of linearize() sees exactly the content, front to back, and whatever it leaves there is afterwards the content, in that order: sorting, reversing, rotating, filling or swapping elements of the slices does the same to the buffer. Capacity does not change, nothing is dropped or lost, and every later call behaves as on any other buffer. This also holds when the code panics on the way, for example in a comparison while sorting. After cb.linearize().sort() the elements are in order: first() is a least one, last() a greatest one.", "quantifier": "all reachable buffers, all client code that keeps the lengths of the slices (all safe code does), also when it panics", "why_tests_cant": "where the content wraps around depends on the history, and client code is an arbitrary function of the elements", "anchors": ["src/circular_buffer/circular.rs::slices_mut", "src/circular_buffer/circular.rs::linearize", "src/circular_buffer/circular.rs::slices", "src/circular_buffer/circular.rs::index"]}
{"id": "C126", "title": "No value is lost or doubled in a program with many buffers", "statement": "In any program that makes buffers, calls them, appends one to another, extends one by another (which consumes it) and drops them, in any order, with panics of destructors caught: the values that were stored plus those that the program gave away are exactly those it got back, those that were dropped, those still stored in some buffer, and those left in a buffer whose own destruction was cut short by a panicking destructor; each value is counted once. All buffers stay sound. If no destructor panics, nothing is left behind, so when all buffers are gone every value was given back or dropped exactly once.", "quantifier": "all programs over any number of buffers of any capacities, all element types and destructors, all histories of calls with any outcomes", "why_tests_cant": "moves between buffers, evictions and panics in the middle of a move combine in unboundedly many ways; leaks and double drops are invisible in results", "anchors": ["src/circular_buffer/circular.rs::append", "src/circular_buffer/circular.rs::extend", "src/circular_buffer/circular.rs::drop", "src/circular_buffer/iter.rs::IntoIter", "src/circular_buffer/circular.rs::push_back"]}
{"id": "C127", "title": "min, max and clamp of bounds are set operations on half-lines", "statement": "The greater of two lower bounds admits exactly the values that both admit, the lesser those that at least one admits; for upper bounds it is the other way round. clamp(min, max) of a bound panics exactly if max < min; otherwise the result is one of the three bounds, lies between the limits, and is the bound itself if that already does. A clamped lower bound admits the values that min admits together with the bound or max; a clamped upper bound those that min admits, or the bound and max both.", "quantifier": "all bounds, open and closed, over every totally ordered value type", "why_tests_cant": "open and closed bounds of equal and different values combine with three roles; the value type is arbitrary", "anchors": ["src/interval/bounds.rs::LowerBound", "src/interval/bounds.rs::UpperBound", "src/interval/bounds.rs::cmp", "src/interval/bounds.rs::partial_cmp"]}
{"id": "C128", "title": "Rotating, filtering, inserting and removing by turning a buffer round", "statement": "A client that takes elements out at the front and puts them back in at the end edits a buffer in place: k rounds of pop_front and push_back rotate the content by k places; one round that puts back only the elements a predicate accepts keeps exactly those, in order, and drops the others, in order, also in a full buffer; turning, push_back and turning on inserts an element at any position of a buffer that is not full; turning, pop_front and turning on removes exactly the element at any position. Capacity stays and nothing else is dropped. If the predicate or the destructor of a rejected element panics, only that element is gone; the rest follow each other with those not yet looked at first.", "quantifier": "all buffers, wrapped or not, all predicates, positions and numbers of rounds", "why_tests_cant": "the loop writes into the cells it has just emptied, at any offset of the ring and at any fill level; predicates and destructors may panic anywhere", "anchors": ["src/circular_buffer/circular.rs::pop_front", "src/circular_buffer/circular.rs::push_back", "src/circular_buffer/circular.rs::len"]}
{"id": "C129", "title": "Operators on buffers, and the greatest, least and clamped buffer", "statement": "With totally ordered elements <, <=, >, >=, == and != on buffers compare the contents in lexicographic order, whatever the layouts and capacities; if the contents first differ in two elements that do not compare, <, <=, > and >= all say no. max, min and clamp take buffers by value, return one of them as it is, and drop the elements of the others once each: max returns the greater (the second on a tie), min the lesser (the first on a tie); clamp panics exactly if its limits are the wrong way round, and then drops all three. Iterator::max over buffers returns the last with the greatest content, Iterator::min the first with the least, and all others are dropped.", "quantifier": "all buffers, all totally ordered element types; for the operators also every partial comparison; max, min and clamp for elements whose destructors do not panic", "why_tests_cant": "buffers of any layout and length, any number of them, and any order of elements", "anchors": ["src/circular_buffer/circular.rs::partial_cmp", "src/circular_buffer/circular.rs::cmp", "src/circular_buffer/circular.rs::eq", "src/circular_buffer/circular.rs::drop"]}
{"id": "C130", "title": "The join and the meet of two partitions", "statement": "A program that walks the groups of one disjoint set, and in another makes the first element of each group a set and unites it with the rest of the group, never panics as long as both together hold at most usize::MAX elements. Afterwards the changed one contains what either contained, and unites two elements exactly if a chain of pairs united in one or the other connects them; the walked one answers as before. A program that walks the groups of one and in a new disjoint set unites the pairs of a group which the other unites never panics: the new one contains what both contain and unites two elements exactly if both do, and the two given ones answer as before.", "quantifier": "all histories of both disjoint sets, all orders of the hash maps", "why_tests_cant": "any two partitions of any size, any chains that alternate between the two, any order of groups and of elements in them", "anchors": ["src/disjoint_set/disjoint_set.rs::union", "src/disjoint_set/disjoint_set.rs::in_union", "src/disjoint_set/disjoint_set.rs::make_set", "src/disjoint_set/disjoint_set.rs::contains", "src/disjoint_set/disjoint_set.rs::into_iter"]}
{"id": "C131", "title": "A panic of Hash while a disjoint set makes room costs nothing", "statement": "If the user's Hash panics on a stored key while the table of a disjoint set makes room (make_set, union, extend, reserve, collecting), no element is lost and no two are separated, however the call ends; a call that panics unites nothing, and one that returns did what it always does. A whole history with such panics has the results and the final state of a history without, in which the calls that panicked end early on a key, iterator or request of their own. (Unlike a counter, C103: nothing is ever removed from the map one by one, so the table never rehashes in place.)", "quantifier": "all element types, all histories, all capacities, panics at any moments the table makes room, builds with and without overflow checks", "why_tests_cant": "the panic has to come in the middle of a reorganisation of the table, at a moment the table chooses; and the claim is about all earlier and later histories", "anchors": ["src/disjoint_set/disjoint_set.rs::make_or_get_set", "src/disjoint_set/disjoint_set.rs::union", "src/disjoint_set/disjoint_set.rs::extend", "src/disjoint_set/disjoint_set.rs::reserve", "src/disjoint_set/disjoint_set.rs::from_iter", "src/disjoint_set/disjoint_set.rs::clear"]}
{"id": "C132", "title": "What Debug output with formatting flags tells", "statement": "C98 and C102 hold with all formatting flags (sign, 0, hexadecimal, fill, alignment, width, precision, #, in any combination), with these exceptions. Counters and disjoint sets: filling with a digit (of the base in use) or a closing bracket; with {:1<2?} two counters with different counts print alike. Intervals and bounds: precision 0, or filling with a closing bracket; with {:.0?} (as one writes for durations) no text tells which bounds are closed. Otherwise, if the texts of the values can be told apart: intervals and bounds have the same text exactly if they are the same; counters with the same text have the same counts; disjoint sets with the same text have the same elements and answer every later call alike.", "quantifier": "all flags, all value types with distinguishable texts, all intervals and bounds, all counters, all histories of disjoint sets, all iteration orders", "why_tests_cant": "that two different values never print alike is a statement about all pairs of values and all combinations of flags; a test compares a few", "anchors": ["src/interval/interval.rs::Interval (derive Debug)", "src/interval/bounds.rs::Bound (derive Debug)", "src/counter/counter.rs::Counter (derive Debug)", "src/disjoint_set/disjoint_set.rs::DisjointSet (derive Debug)"]}
{"id": "C133", "title": "References from iter_mut are independent", "statement": "A client may keep the references that iter_mut() hands out from both ends (for example in a Vec<&mut T>) and read, assign, replace, swap and reorder through them in any order, while the iteration goes on and after panics of their own. At every moment all references, kept or still to come, lead to different slots that hold elements. What is stored through one is read through it and through no other. Every step behaves as if each reference were a box of its own; in the end each element of the buffer is what was left in its box, and the capacity is unchanged.", "quantifier": "every reachable buffer, every sequence of steps", "why_tests_cant": "that no two references ever alias, for every position of the wrap and every order of use, is beyond any set of runs; a test sees a few orders on a few buffers", "anchors": ["src/circular_buffer/circular.rs::CircularBuffer::iter_mut", "src/circular_buffer/circular.rs::CircularBuffer::slices_mut", "src/circular_buffer/iter.rs::IterMut"]}
{"id": "C134", "title": "The shape of the order of intervals", "statement": "Precedence of intervals is an interval order: if a < b and c < d then a < d or c < b. A non-empty interval that intersects one interval before b and one behind b contains b. Whether non-empty intervals are sorted by upper or by lower bounds, no later one is < an earlier one. Sorted by upper bounds, the intervals behind a that intersect a intersect each other; if four or more non-empty intervals stand in a ring and each intersects the next, two that are not next to each other intersect. Sorting non-empty intervals with partial_cmp(..).unwrap() cannot panic exactly if any two of them are equal or do not intersect, and then only one order of the collection is sorted.", "quantifier": "all obtainable intervals and all collections of them, over every linearly ordered type, with every combination of closed and open bounds", "why_tests_cant": "the laws speak about every four intervals, every ring of any length and every order of every collection; one wrong comparison of an open with a closed bound at a common value breaks them", "anchors": ["src/interval/interval_cmp.rs::partial_cmp", "src/interval/interval_cmp.rs::lt", "src/interval/interval.rs::intersects", "src/interval/interval.rs::contains_interval", "src/interval/bounds.rs::cmp"]}
{"id": "C135", "title": "Counting intervals by their sorted bounds", "statement": "A client that keeps the lower bounds and the upper bounds of a collection of intervals in two vectors, each sorted with the order of the bounds, finds the number of intervals that contain v as lowers.partition_point(|l| *l <= v) - uppers.partition_point(|u| *u < v), and the number of non-empty intervals that intersect a non-empty q as lowers.partition_point(|l| !(*l > q_upper)) - uppers.partition_point(|u| *u < q_lower). The difference never underflows, and each search looks at no more than log2 of the size, plus one, bounds.", "quantifier": "all collections of obtainable intervals, all values and intervals asked for, over every linearly ordered type, with every combination of closed and open bounds", "why_tests_cant": "it needs the total order of the bounds, their comparison with values, their comparison with each other and membership to agree on every collection, also where open and closed bounds have one value", "anchors": ["src/interval/bounds.rs::LowerBound", "src/interval/bounds.rs::UpperBound", "src/interval/interval.rs::into_bounds", "src/interval/interval.rs::contains_val", "src/interval/interval.rs::intersects"]}
{"id": "C136", "title": "A buffer that limits how many events are admitted", "statement": "A client admits an event at time now if the buffer is not full or its first element lies a whole window back, and then calls push_back(now). For every sequence of times in order, nothing panics; no stretch of time as long as the window contains more admitted events than the capacity (which is not zero); an event is refused only if together with those admitted before it would exceed that limit; and no choice of events within the limit, even one that knows all events in advance, admits more. The buffer holds the latest admitted events.", "quantifier": "all capacities above zero, all windows, all sequences of times in order, builds with and without overflow checks", "why_tests_cant": "the limit speaks about every stretch of time and the optimality about every other choice from every sequence; the buffer has to return the right oldest element at every position of the wrap", "anchors": ["src/circular_buffer/circular.rs::is_full", "src/circular_buffer/circular.rs::first", "src/circular_buffer/circular.rs::push_back"]}
{"id": "C137", "title": "Equations and inequations decided by a disjoint set", "statement": "A client unites the two sides of every equation, adds the unknowns of the inequations and answers whether in_union is false for all inequations. For all lists of equations and inequations nothing panics; the answer is true exactly if there are values, of any kind, that agree with all of them, and then numbers do as well. If it is true, in_union afterwards returns true for exactly those unknowns that are equal in all values that agree.", "quantifier": "all types of unknowns, all lists of equations and inequations with at most usize::MAX unknowns, all kinds of values", "why_tests_cant": "the claim quantifies over all assignments of values of all types, and over all lists of equations", "anchors": ["src/disjoint_set/disjoint_set.rs::union", "src/disjoint_set/disjoint_set.rs::in_union", "src/disjoint_set/disjoint_set.rs::extend"]}
{"id": "C138", "title": "Undo and redo with two buffers", "statement": "A client keeps earlier versions of a value in one buffer and undone ones in another of the same capacity: an edit pushes the old value to the first and clears the second, undo pops from the first and pushes to the second, redo the other way round. For every sequence of these commands nothing panics; undo, redo and their answers are those of a line of at most capacity + 1 versions with a place on it; undo and redo never lose a version, so as many edits as the capacity can always be undone one by one and redone; every version is on the line or was dropped, exactly once.", "quantifier": "all capacities, all element types whose destructors do not panic, all sequences of commands", "why_tests_cant": "the buffers wrap and evict at places that depend on the whole history of commands, and the claim is about every history", "anchors": ["src/circular_buffer/circular.rs::push_back", "src/circular_buffer/circular.rs::pop_back", "src/circular_buffer/circular.rs::clear"]}
{"id": "C139", "title": "How far apart two sequences are when their order does not matter", "statement": "A client counts two sequences and sums the counts of a - &b and of b - &a. For all sequences nothing panics and the result is the least number of items that have to be removed or inserted to turn one into a rearrangement of the other; it is zero for rearrangements only, the same in both directions, and not greater than by way of a third sequence. The sum of the counts of a - &(a - &b) is the greatest number of items both have in common; the distance and twice that number make up the length of both.", "quantifier": "all pairs and triples of sequences whose counts fit in usize, all iteration orders of the maps", "why_tests_cant": "the least number ranges over all ways of turning one sequence into the other, for all sequences and iteration orders", "anchors": ["src/counter/counter.rs::from_iter", "src/counter/counter.rs::sub", "src/counter/counter.rs::deref"]}
{"id": "C140", "title": "Automata compared with a disjoint set", "statement": "A client runs the algorithm of Hopcroft and Karp: it takes a pair of states from a stack, skips it if the states are the same or in_union, answers false if one accepts and the other does not, and otherwise unites them and puts the pairs of their successors on the stack. For every finite deterministic automaton and all pairs of states it ends after at most 1 + letters * states pairs without a panic and answers whether the two states accept the same words. After the answer true, all states that are in_union accept the same words.", "quantifier": "all finite automata over all alphabets, all pairs of states", "why_tests_cant": "accepting the same words is about infinitely many words, and the claim is about all automata; the skipping relies on in_union being exactly the equivalence generated by the unions", "anchors": ["src/disjoint_set/disjoint_set.rs::union", "src/disjoint_set/disjoint_set.rs::in_union"]}
{"id": "C141", "title": "Readers that may fall behind", "statement": "A client writes messages to a buffer with push_back, counts them, and remembers for each reader how many there were when it looked last; a poll computes from len what is still there and returns the rest of iter(). For every sequence of writes and polls of any readers nothing panics; every poll returns the latest messages the reader has not seen, in order, as many as fit in the buffer, and the exact number of those it missed. What a reader got, was told to have missed and has not seen yet are all messages; if it missed none, it got all of them in order.", "quantifier": "all capacities including zero, all sequences of at most usize::MAX writes and of polls, all numbers of readers, all element types whose destructors do not panic", "why_tests_cant": "the buffer wraps at places that depend on the history, and the claim is about every interleaving of writers and readers", "anchors": ["src/circular_buffer/circular.rs::push_back", "src/circular_buffer/circular.rs::len", "src/circular_buffer/circular.rs::iter"]}
{"id": "C142", "title": "Turns in a circle", "statement": "A client keeps its tasks and the number of turns each still needs in a buffer, takes the first out with pop_front, gives it a turn and puts it back with push_back if it needs more. Whatever reachable buffer holds the tasks, and whatever its capacity, the loop ends, nothing panics and nothing is dropped. In each round every task that still needs a turn gets exactly one, in the order of the tasks. Every task gets as many turns as it needs, and at no time has a task had two turns more than another that still waits.", "quantifier": "all reachable buffers of tasks, whether full, wrapped or not, all numbers of turns that are at least one, all types of tasks; the last sentence for tasks that differ", "why_tests_cant": "the loop wraps around the array many times, at places that depend on the history and the tasks, and in a full buffer every push takes the place a pop has just left", "anchors": ["src/circular_buffer/circular.rs::pop_front", "src/circular_buffer/circular.rs::push_back"]}
{"id": "C143", "title": "Connections that are cut", "statement": "A client is told which connections between places are cut, one after the other, and is asked in between which places are still connected. It unites the connections that are never cut, then goes through the events from the last to the first, calling union for every cut and in_union for every question. Every answer is true exactly if at the time of the question the two places were connected by the connections that had not been cut by then. Nothing panics.", "quantifier": "all finite sets of places of any type with a lawful Eq and Hash, all connections between them, all sequences of cuts of connections that are there and of questions, stacks of at least 64 frames", "why_tests_cant": "there are exponentially many orders of cuts and questions, and the answers depend on trees that path compression reshapes at every question", "anchors": ["src/disjoint_set/disjoint_set.rs::union", "src/disjoint_set/disjoint_set.rs::in_union", "src/disjoint_set/disjoint_set.rs::extend"]}
{"id": "C144", "title": "The keys used most recently", "statement": "A client decides with a buffer which keys a cache holds: it looks with iter() whether the key is there, takes it out by turning the buffer round with pop_front and push_back, and puts it in at the end with push_back. A key is found exactly if it was used before and fewer than capacity() different keys were used since. The buffer holds every key once, in the order of the last uses, the last capacity() of them. What is found in a small buffer is found in a larger one. This is not so if keys that are found stay where they are. Nothing panics.", "quantifier": "all capacities including zero, all sequences of keys, all element types with decidable equality whose destructors do not panic; the contrast is one sequence of keys", "why_tests_cant": "each use turns the whole buffer round, so every history has its own sequence of wraps; the claim about larger buffers compares runs of unlimited length", "anchors": ["src/circular_buffer/circular.rs::iter", "src/circular_buffer/circular.rs::pop_front", "src/circular_buffer/circular.rs::push_back"]}
{"id": "C145", "title": "Narrowing what unknowns may be", "statement": "Of each unknown it is known in which interval it lies, and of some pairs how far apart they are. A client narrows the intervals with + and - and into_intersection, again and again. In whatever order and how often the distances are used, nothing panics, every interval lies in the one there was and no solution is lost. When nothing changes any more, the result does not depend on the order. If then the distances do not contradict each other and lead from one unknown to all others, its interval holds exactly the values it has in solutions.", "quantifier": "all numbers of unknowns, all obtainable intervals with open, closed or mixed ends over all ordered commutative groups, dense or not, all distances, all sequences of steps", "why_tests_cant": "there are unlimited orders of steps, and the claim that they end alike compares all of them; open ends over types that are not dense have values between them or not", "anchors": ["src/interval/interval.rs::into_intersection", "src/interval/interval_math.rs::Add", "src/interval/interval_math.rs::Sub"]}
{"id": "C146", "title": "Stock from which orders are filled completely or not at all", "statement": "A client keeps a stock in a counter: deliveries go in with extend, an order is collected into a counter of its own, and it is taken out with -= if nothing is left of it when the stock is subtracted with -. For every sequence of deliveries and orders nothing panics, an order is filled exactly if all its items, with their multiplicity, are in what is left at that moment, and at every moment what was delivered is what was sold together with what is left. In the end the counter holds exactly what is left and no key that is used up.", "quantifier": "all sequences of deliveries and orders of all lengths in which no kind is delivered or ordered more than usize::MAX times, all orders in which the hash maps are iterated", "why_tests_cant": "the sequences are unbounded and the order of iteration of a hash map is random; the balance has to hold at every moment of every sequence", "anchors": ["src/counter/counter.rs::extend", "src/counter/counter.rs::from_iter", "src/counter/counter.rs::Sub", "src/counter/counter.rs::SubAssign"]}
{"id": "C147", "title": "Frequent items found with few keys, and in parts", "statement": "A client keeps a counter with at most k keys: it pushes an item and, if there are more than k keys then, subtracts one from each with -=. Two such summaries are merged with +, most_common and -. However a summary came about by noting items and merging, nothing panics, it has at most k keys, no count is greater than the true one, and (k + 1) times what a count lacks, plus the sum of all counts kept, is at most the number of items. So every item that is more than a (k + 1)-th of all is a key of the summary, and while there are at most k different items all counts are exact.", "quantifier": "all k, all sequences of items and trees of merges in which no item occurs more than usize::MAX times, all orders in which the hash maps are iterated, all sorting algorithms", "why_tests_cant": "streams and trees of merges are unbounded, and which keys survive depends on the random order of iteration and on ties", "anchors": ["src/counter/counter.rs::push", "src/counter/counter.rs::sub_assign", "src/counter/counter.rs::Sub", "src/counter/counter.rs::Add", "src/counter/counter.rs::most_common", "src/counter/counter.rs::from_hashmap"]}
{"id": "C148", "title": "Tasks arranged with a counter and a buffer", "statement": "A client arranges tasks so that each comes after those it waits for: a counter says for how many, a circular buffer holds those that can be done; doing one subtracts it from the counts of those that wait for it with -=, and a task whose key disappears from the counter is pushed into the buffer. If all tasks have room in the buffer, the loop ends after at most as many rounds as there are tasks, nothing panics and nothing is overwritten. No task is named twice, each comes after all it waits for, and exactly those tasks are left out that wait for a task that waits for itself; all are arranged exactly if there is no such task.", "quantifier": "all finite graphs, with multiple edges, loops and cycles, all orders in which tasks are listed, all capacities of at least the number of tasks", "why_tests_cant": "there are unlimited graphs, and the claim compares the result with all walks in the graph", "anchors": ["src/counter/counter.rs::from_iter", "src/counter/counter.rs::sub_assign", "src/circular_buffer/circular.rs::push_back", "src/circular_buffer/circular.rs::pop_front"]}
{"id": "C149", "title": "Radix sort with buffers as bins", "statement": "A client sorts with circular buffers as bins: for one digit after the other every item goes to the bin of its digit with push_back, then the bins are emptied one after the other with pop_front. If every digit has a bin and no bin gets more items in a pass than it has room for, nothing panics, nothing is overwritten, and the result is a rearrangement of the items, sorted by all digits, in which items with the same digits keep their order; the bins are empty again. With the digits of a number in base b the result is sorted by the number.", "quantifier": "all lists of items, all lists of functions that give digits, all numbers of bins and capacities that have room, all bases and keys", "why_tests_cant": "that items with equal digits never change their order has to hold for all lists and at all positions the ends of the bins can have between passes", "anchors": ["src/circular_buffer/circular.rs::push_back", "src/circular_buffer/circular.rs::pop_front", "src/circular_buffer/circular.rs::len", "src/circular_buffer/circular.rs::with_capacity"]}
{"id": "C150", "title": "Groups that are as far apart as possible", "statement": "A client groups points: all points are collected into a disjoint set, pairs of points are taken in the order of their distances and united unless in_union says they are together, until len() minus the unions made is the wanted number; then the groups are iterated. If the pairs contain any two different points and the wanted number is between one and the number of points, nothing panics and the iteration yields exactly the wanted number of groups, none empty, every point in exactly one. If at least two are wanted, the groups are as far apart as possible: however the points are put into as many groups, some two points of different groups are at most as far from each other as any two points of different groups of the program.", "quantifier": "all points, symmetric distances, orders of equal distances, wanted numbers, iteration orders of the hash maps, and all other groupings", "why_tests_cant": "the comparison is with all groupings of the points, whose number grows faster than exponentially", "anchors": ["src/disjoint_set/disjoint_set.rs::from_iter", "src/disjoint_set/disjoint_set.rs::in_union", "src/disjoint_set/disjoint_set.rs::union", "src/disjoint_set/disjoint_set.rs::len", "src/disjoint_set/disjoint_set.rs::into_iter"]}
{"id": "C151", "title": "Which equations between terms follow", "statement": "A client decides equations between terms (congruence closure). Every term has a name and a table tells which name stands for one name applied to another. The names are added with extend, the given equations are united, and then passes over all pairs of rows unite the results whose functions and arguments are united, until a pass changes nothing, at most len() + 1 times. Nothing panics, and afterwards in_union(x, y) is true exactly if x and y have the same value in every world (set of values and meaning of applying) in which the table and the equations are right. There is a single world in which names are equal only if in_union says so.", "quantifier": "all names, tables and equations, all worlds, all pairs of names", "why_tests_cant": "whether an equation follows depends on all worlds, also infinite ones; that len() + 1 passes are enough has to hold for all tables", "anchors": ["src/disjoint_set/disjoint_set.rs::extend", "src/disjoint_set/disjoint_set.rs::in_union", "src/disjoint_set/disjoint_set.rs::union", "src/disjoint_set/disjoint_set.rs::len"]}
{"id": "C152", "title": "A stable matching found with a buffer as the line", "statement": "A client finds a stable matching (Gale and Shapley): applicants wait in a circular buffer; the one that pop_front returns applies to the next place on its list; a place keeps the better of two applicants and the other one goes back with push_back. With a buffer in which all applicants have room the loop ends after at most as many rounds as there are applicants and entries on their lists, nothing panics, nothing is overwritten, and the matching is stable: there is no applicant and place that would rather have each other. If no place ranks two applicants the same, every applicant does at least as well as in any stable matching, and the result does not depend on the order in which the applicants queue up.", "quantifier": "all applicants, lists, rankings (with ties for stability), capacities with room, orders of the line, and all stable matchings", "why_tests_cant": "optimality compares with all stable matchings, and the line moves round the ends of the buffer in ways that depend on all rankings", "anchors": ["src/circular_buffer/circular.rs::push_back", "src/circular_buffer/circular.rs::pop_front", "src/circular_buffer/circular.rs::with_capacity"]}
{"id": "C153", "title": "Ranges locked with intervals and a line", "statement": "A client locks ranges: requests wait in a circular buffer; the first one gets its range as soon as intersects is false of it and every range held; a release takes a range away from those held and serves the line again. Whatever is asked, nothing panics and nothing in the line is overwritten. No value is ever in two ranges held. Requests are granted in the order in which they were let in, a request is let in exactly if the line is not full, and one that meets an empty line and intersects nothing held is granted at once. Nobody waits without reason: the first in the line intersects a range held, which on dense orders with non-empty ranges is a common value. When all ranges held are released, in any order, the first in the line is served first. Because intersects is true of empty intervals (C27), an empty range, held or asked for, blocks although it has no values.", "quantifier": "all sequences of requests and releases, ranges, capacities, linear orders", "why_tests_cant": "mutual exclusion and order must hold after every sequence of requests and releases, as the line moves round the ends of the buffer", "anchors": ["src/circular_buffer/circular.rs::push_back", "src/circular_buffer/circular.rs::pop_front", "src/circular_buffer/circular.rs::first", "src/interval/interval.rs::intersects"]}
{"id": "C154", "title": "The first item of a stream that has come only once", "statement": "A client pushes every item of a stream to a counter, puts items that come for the first time into a circular buffer with push_back, takes items away with pop_front while the front one has a count other than 1, and answers with first. If the buffer has room for the different items, nothing panics, nothing is overwritten, and after every item the answer is the first item so far that has come only once, or None if each has come again. With any capacity an answer is an item that has come only once, though not always the first.", "quantifier": "all streams, after each of their items; all capacities", "why_tests_cant": "the answer after each item depends on all items before it, and the line moves round the ends of the buffer in ways that depend on the stream", "anchors": ["src/circular_buffer/circular.rs::push_back", "src/circular_buffer/circular.rs::pop_front", "src/circular_buffer/circular.rs::first", "src/counter/counter.rs::push"]}
{"id": "C155", "title": "Delay lines and running sums", "statement": "A client fills a circular buffer of capacity n > 0 with zeros; for each value of a signal it takes the oldest value with pop_front, stores the new one with push_back, and adds the difference to a sum. Nothing panics and nothing is overwritten; what comes out is what went in n steps before, and zero before that; the sum is at all times the sum of the latest n values, however long the signal; and two such lines one after the other delay like one of their total length.", "quantifier": "all signals with values in a commutative group, all capacities > 0 and all times", "why_tests_cant": "a running sum may drift only after long signals, and the start of the buffer wraps around at times that depend on the capacity", "anchors": ["src/circular_buffer/circular.rs::push_back", "src/circular_buffer/circular.rs::pop_front", "src/circular_buffer/circular.rs::with_capacity"]}
