{"claims": [
  {"property": "C01", "status": "proved", "theorems": ["CB.c01_refines_bounded_deque", "CB.c01_refines_from_any"], "note": "Refinement of all 24 calls against the bounded deque, from a fresh buffer and from any reachable one, in every build configuration."},
  {"property": "C02", "status": "proved", "theorems": ["CB.c02_push_back", "CB.c02_push_back_cases"], "note": "Stated for values whose destructors do not panic; panicking destructors are covered by C01 and C09."},
  {"property": "C03", "status": "proved", "theorems": ["CB.c03_push_front"], "note": "Stated for values whose destructors do not panic; panicking destructors are covered by C01 and C09."},
  {"property": "C04", "status": "proved", "theorems": ["CB.c04_observers_agree"], "note": "Every reachable buffer, including after caught panics."},
  {"property": "C05", "status": "proved", "theorems": ["CB.c05_only_resize_changes_capacity", "CB.c05_append_keeps_capacities", "CB.c05_extend_ref_keeps_capacity"], "note": "Any history of calls; append and extend(&items) separately."},
  {"property": "C06", "status": "proved", "theorems": ["CB.c06_resize", "CB.c06_resize_refused"], "note": "Accepted and refused allocations. resize(usize::MAX) and capacities beyond isize::MAX for zero-sized elements are C21."},
  {"property": "C07", "status": "proved", "theorems": ["CB.c07_only_expected_panics", "CB.c07_views_never_fault", "CB.c07_append_only_user_panics"], "note": "Every call of the model; resize(usize::MAX) and zero-sized capacities beyond isize::MAX are C21."},
  {"property": "C08", "status": "proved", "theorems": ["CB.c08_conservation", "CB.c08_drop_drops_the_rest", "CB.c08_nothing_twice", "CB.c08_into_iter"], "note": "Permutation of values in = values out, dropped, still stored, over any history."},
  {"property": "C09", "status": "proved", "theorems": ["CB.c09_panic_keeps_buffer_sound", "CB.c09_append_keeps_buffers_sound"], "note": "Any predicate of panicking destructors; any later history."},
  {"property": "C10", "status": "proved", "theorems": ["CB.c10_views_agree"], "note": "All views; iter_mut as distinct places."},
  {"property": "C11", "status": "proved", "theorems": ["CB.c11_linearize"], "note": "Every reachable buffer."},
  {"property": "C12", "status": "proved", "theorems": ["CB.c12_swap", "CB.c12_reverse"], "note": "Every pair of positions; reverse twice restores."},
  {"property": "C13", "status": "proved", "theorems": ["CB.c13_extend", "CB.c13_extend_ref", "CB.c13_append"], "note": "extend, extend(&items) and append."},
  {"property": "C14", "status": "proved", "theorems": ["CB.c14_drain", "CB.c14_drain_collect", "CB.c14_into_iter_drop"], "note": "Any number of steps; drop of into_iter after any number of steps."},
  {"property": "C15", "status": "proved", "theorems": ["CB.c15_eq", "CB.c15_eq_slice", "CB.c15_partial_cmp", "CB.c15_cmp", "CB.c15_cmp_total_order"], "note": "Any user comparison functions; lawfulness assumed only for the total-order theorem."},
  {"property": "C16", "status": "partial", "theorems": ["CB.c16_clone_touches_uninitialised", "CB.c16_clone_partial"], "note": "False of the code: derived Clone calls T::clone on an uninitialised slot of every reachable buffer, unless an earlier T::clone panics. The partial theorem covers Copy elements."},
  {"property": "C17", "status": "proved", "theorems": ["CB.c17_out_of_range"], "note": "index, index_mut and swap."},
  {"property": "C18", "status": "proved", "theorems": ["CB.c18_with_capacity", "CB.c18_from_sequence", "CB.c18_from_refs"], "note": "new, from(vec), from_iter by value and by reference."},
  {"property": "C19", "status": "proved", "theorems": ["CB.c19_double_ended", "CB.c19_iter_mut"], "note": "Any interleaving of next and next_back."},
  {"property": "C20", "status": "proved", "theorems": ["CB.c20_sliding_window"], "note": "Any stream and capacity."},
  {"property": "C21", "status": "partial", "theorems": ["CB.c21_new_usize_max_unchecked", "CB.c21_huge_zst_len_overflows", "CB.c21_resize_usize_max_unchecked", "CB.c21_zst_partial", "CB.c21_exact"], "note": "False of the code exactly for capacities above isize::MAX in builds with overflow checks (c21_exact), and for usize::MAX without them. The partial theorem covers capacities up to isize::MAX, and without overflow checks every capacity below usize::MAX."},
  {"property": "C22", "status": "proved", "theorems": ["Itv.c22_well_formed", "Itv.c22_exact"], "note": "Obtainable is the inductive set of intervals produced by every constructor, set operation, (possibly panicking, lawless, impure) arithmetic with any Clone of the operand, and negation; intervals left by a panicked assigning operator are the subject of C42. The invariant is also shown exact."},
  {"property": "C23", "status": "proved", "theorems": ["Itv.c23_new", "Itv.c23_other_constructors", "Itv.c23_bounds_report"], "note": "Exact panic condition and accessor values for new; the other constructors are shown equal to new with their closedness."},
  {"property": "C24", "status": "partial", "theorems": ["Itv.c24_empty_contains_everything", "Itv.c24_contains_val_partial"], "note": "False of the code for the empty interval (contains_val is always true): c24_empty_contains_everything. The partial theorem is exact: contains_val holds iff the interval is empty or the value is a point of it."},
  {"property": "C25", "status": "proved", "theorems": ["Itv.c25_sound", "Itv.c25_dense_iff"], "note": "Soundness for every linear order, equivalence for densely ordered types."},
  {"property": "C26", "status": "proved", "theorems": ["Itv.c26_intersection"], "note": "Both variants never panic, agree, and are exact, over every linear order, including the empty interval."},
  {"property": "C27", "status": "partial", "theorems": ["Itv.c27_empty_intersects_everything", "Itv.c27_intersects_partial"], "note": "False of the code for empty intervals (always true): c27_empty_intersects_everything. The partial theorem is exact: intersects holds iff an operand is empty or into_intersection is non-empty; with the converse on dense orders."},
  {"property": "C28", "status": "proved", "theorems": ["Itv.c28_merge", "Itv.c28_refusal_dense"], "note": "Both variants, exact union on success, operands returned on failure, on dense orders failure means no interval is the union."},
  {"property": "C29", "status": "proved", "theorems": ["Itv.c29_least_enclosing", "Itv.c29_least_by_points", "Itv.c29_laws"], "note": "Least enclosing interval by contains_interval on every order, and by points when both operands have a point; commutative, associative, idempotent, unit."},
  {"property": "C30", "status": "proved", "theorems": ["Itv.c30_strict", "Itv.c30_strict_dense"], "note": "All orders; converse on dense orders for non-empty intervals."},
  {"property": "C31", "status": "proved", "theorems": ["Itv.c31_weak", "Itv.c31_weak_dense"], "note": "All orders; converse on dense orders for non-empty intervals."},
  {"property": "C32", "status": "partial", "theorems": ["Itv.c32_le_inconsistent", "Itv.c32_consistent_partial", "Itv.c32_exact_partial", "Itv.c32_value_exact_partial"], "note": "False of the code: three witnesses in c32_le_inconsistent. Partial: <, >, == agree with partial_cmp, Less/Greater imply <=/>=; and exactly which pairs break the contract (c32_exact_partial, c32_value_exact_partial)."},
  {"property": "C33", "status": "proved", "theorems": ["Itv.c33_value_comparison", "Itv.c33_weak_dense"], "note": "All orders; converse for <=, >= on dense orders."},
  {"property": "C34", "status": "proved", "theorems": ["Itv.c34_lower_total_order", "Itv.c34_upper_total_order", "Itv.c34_half_lines", "Itv.c34_value_comparison"], "note": "Total order laws for both kinds of bounds, consistency of all operators, half-line inclusion (converse on dense orders), comparison with values."},
  {"property": "C35", "status": "partial", "theorems": ["Itv.c35_cross_contradictory", "Itv.c35_cross_partial", "Itv.c35_equal_values_partial"], "note": "False of the code: c35_cross_contradictory. Partial: mirrored operators agree always, everything is consistent when the bound values differ. What the comparisons say for equal values, and that == and != never hold, is pinned by c35_equal_values_partial."},
  {"property": "C36", "status": "proved", "theorems": ["Itv.c36_translate"], "note": "Every linearly ordered commutative group."},
  {"property": "C37", "status": "partial", "theorems": ["Itv.c37_zero_loses_points", "Itv.c37_ring_partial", "Itv.c37_field"], "note": "False of the code for c = 0 and an open bound: c37_zero_loses_points. Proved for c != 0 over ordered rings (inclusion both ways) and fields (exact), and the c = 0 result is characterised."},
  {"property": "C38", "status": "partial", "theorems": ["Itv.c38_field", "Itv.c38_integer_loses_points", "Itv.c38_integer_partial"], "note": "Fields: exact. Truncating integer division: false of the code for points sharing the quotient of an open bound (c38_integer_loses_points); the partial theorem says exactly which points the result has."},
  {"property": "C39", "status": "proved", "theorems": ["Itv.c39_mirror"], "note": "Every linearly ordered commutative group."},
  {"property": "C40", "status": "proved", "theorems": ["Itv.c40_intervals_agree", "Itv.c40_bounds_agree"], "note": "Any element operator op and any assigning operator that agrees with it (same result, panics when op panics), whatever it leaves behind when it panics."},
  {"property": "C41", "status": "proved", "theorems": ["Itv.c41_ring_ops", "Itv.c41_neg", "Itv.c41_div", "Itv.c41_div_overflow"], "note": "Any width, signed and unsigned, checked and wrapping builds; +, -, *, /, negation. Result bounds are shown to be values of the type."},
  {"property": "C42", "status": "partial", "theorems": ["Itv.c42_panic_leaves_ill_formed", "Itv.c42_after_panic_partial", "Itv.c42_comparison_panic_partial", "Itv.c42_comparison_panic_leaves_ill_formed"], "note": "False of the code: c42_panic_leaves_ill_formed ((126,127) += 1 on i8). Partial: exact description of the state after the panic for any op=, including one that leaves its operand changed; unchanged if the first update panics and leaves its operand alone. Panics of the comparison: c42_comparison_panic_leaves_ill_formed and c42_comparison_panic_partial."},
  {"property": "C43", "status": "proved", "theorems": ["Itv.c43_eq_iff_same_points"], "note": "Dense orders for the converse."},
  {"property": "C44", "status": "proved", "theorems": ["Itv.c44_display_injective", "Itv.c44_read_back"], "note": "For any Display of the value type that is injective and comma free."},
  {"property": "C45", "status": "proved", "theorems": ["Cnt.c45_counts_multiplicities", "Cnt.c45_new_empty"], "note": "Any history of push/extend calls after from_iter, with caught iterator panics."},
  {"property": "C46", "status": "proved", "theorems": ["Cnt.c46_order_irrelevant", "Cnt.c46_from_iter"], "note": "Permutations of the items into equal counters give equal counters or panic alike, in every build."},
  {"property": "C47", "status": "proved", "theorems": ["Cnt.c47_addition", "Cnt.c47_forms_agree", "Cnt.c47_commutative", "Cnt.c47_associative"], "note": "Sums per key for all four forms of addition and every iteration order; commutative and associative in every build, panics included."},
  {"property": "C48", "status": "proved", "theorems": ["Cnt.c48_subtraction"], "note": "All four forms of subtraction, every iteration order, no underflow."},
  {"property": "C49", "status": "proved", "theorems": ["Cnt.c49_add_sub", "Cnt.c49_sub_self", "Cnt.c49_sub_add"], "note": "(a+b)-b==a, a-a empty, (a-b)+b pointwise maximum."},
  {"property": "C50", "status": "partial", "theorems": ["Cnt.c50_wraps_to_zero", "Cnt.c50_no_zero_partial", "Cnt.c50_no_overflow_partial"], "note": "False in builds without overflow checks (c50_wraps_to_zero: for every key there is a counter holding that key alone, with count zero). Proved for builds with overflow checks, including after caught panics, and call by call for any build as long as nothing overflows. C88 says exactly when a stored zero appears by counting and adding."},
  {"property": "C51", "status": "proved", "theorems": ["Cnt.c51_most_common", "Cnt.c51_first_is_maximal", "Cnt.c51_only_ties_differ"], "note": "Every iteration order and every sorting result allowed by sort_unstable_by_key."},
  {"property": "C52", "status": "proved", "theorems": ["Cnt.c52_push", "Cnt.c52_add", "Cnt.c52_extend", "Cnt.c52_from_iter", "Cnt.c52_iterator_panic"], "note": "push, extend, from_iter and the four forms of addition panic exactly when a count would exceed usize::MAX; exact otherwise; also says what a panic, of the arithmetic or of the iterator, leaves behind."},
  {"property": "C53", "status": "proved", "theorems": ["Cnt.c53_total_of_items", "Cnt.c53_total_add", "Cnt.c53_total_extend"], "note": "Totals of from_iter, extend and addition."},
  {"property": "C54", "status": "proved", "theorems": ["Cnt.c54_eq_is_extensional", "Cnt.c54_eq_is_multiset_eq", "Cnt.c54_built_eq_is_multiset_eq", "Cnt.c54_wrapped_zero_differs"], "note": "== is lookup equality for all counters and multiplicity equality for counters without zeros; the wrapped-zero exception is exhibited."},
  {"property": "C55", "status": "proved", "theorems": ["Cnt.c55_conversions"], "note": "from_hashmap, From<HashMap>, From<&HashMap>, every iteration order."},
  {"property": "C56", "status": "proved", "theorems": ["DS.c56_in_union", "DS.c56_all_answers"], "note": "Reached covers every history from new/from_iter, incl. caught user panics; Conn is the inductively generated equivalence."},
  {"property": "C57", "status": "proved", "theorems": ["DS.c57_contents", "DS.c57_added"], "note": "c57_added spells out which calls add an element."},
  {"property": "C58", "status": "proved", "theorems": ["DS.c58_partition"], "note": "For all orders of both hash maps involved; same group iff in_union answers true."},
  {"property": "C59", "status": "proved", "theorems": ["DS.c59_log_depth", "DS.c59_frames_64", "DS.c59_log_depth_needed"], "note": "Any stack of log2(n)+1 frames runs the history exactly as a larger one, and 64 frames suffice for any n. c59_log_depth_needed: for every n some history of at most n elements overflows every smaller stack, so the bound is the best possible."},
  {"property": "C60", "status": "proved", "theorems": ["DS.c60_no_panic", "DS.c60_ranks"], "note": "More than usize::MAX elements excluded. What happens when growth on insertion is refused memory is C100."},
  {"property": "C61", "status": "proved", "theorems": ["DS.c61_group_count", "DS.c61_joins"], "note": "joins is tied to in_union by c61_joins."},
  {"property": "C62", "status": "proved", "theorems": ["DS.c62_queries_invisible"], "note": "Exact equality of all later results, group order included."},
  {"property": "C63", "status": "proved", "theorems": ["DS.c63_order_irrelevant", "DS.c63_permutation"], "note": "Stronger than permutations: the two histories only need to contain the same calls up to swapped union arguments."},
  {"property": "C64", "status": "proved", "theorems": ["DS.c64_idempotent", "DS.c64_isolated"], "note": "make_set of a present element changes nothing observable, ever after; of a new one adds a singleton and no connection."},
  {"property": "C65", "status": "proved", "theorems": ["DS.c65_clear"], "note": "After clear every later history behaves as from a new set, ids, ranks and group order included."},
  {"property": "C66", "status": "partial", "theorems": ["DS.c66_panic_safe_partial", "DS.c66_second_clear_repairs", "DS.c66_clear_not_panic_safe", "DS.c66_clear_inherits", "DS.c66_clear_overflows_stack"], "note": "False of clear: a panicking element destructor leaves data_by_id behind (c66_clear_not_panic_safe); c66_clear_inherits says exactly which answers later elements get, c66_clear_overflows_stack that any stack overflows. Proved for every other call. Panics of Hash on stored keys during a rehash are in C131."},
  {"property": "C67", "status": "partial", "theorems": ["CB.c67_drop_partial", "CB.c67_into_iter_drop_partial", "CB.c67_drop_leaks"], "note": "False of the code: Drop calls clear, which pops and drops one element at a time, and a panic leaves the rest in ManuallyDrop slots that are never dropped (c67_drop_leaks). Proved: exactly what is dropped and what leaks, for the buffer and for into_iter."},
  {"property": "C68", "status": "proved", "theorems": ["DS.c68_repeated_search", "DS.c68_later_search", "DS.c68_after_iteration", "DS.c68_after_union"], "note": "Depth is the number of stack frames a search needs. Immediate repetition, later repetition after any calls but union, after an iteration, after a union."},
  {"property": "C69", "status": "proved", "theorems": ["DS.c69_counts_frames", "DS.c69_counting_is_invisible", "DS.c69_amortised", "DS.c69_alpha_small", "DS.c69_memory", "DS.c69_practical"], "note": "The counted quantity is calls of find_with_path_compression; hash map accesses are one per key by the map contract. Ackermann's function in Tarjan's form (A_k(1)); the documentation's \"\u03b1(n) < 4\" is \u2264 4 with this indexing."},
  {"property": "C70", "status": "proved", "theorems": ["Itv.c70_separated", "Itv.c70_merge"], "note": "Separation says nothing about values that do not exist: over the integers 4 and 3 are separated although no integer lies between. Hence the density assumption in the converse."},
  {"property": "C71", "status": "proved", "theorems": ["Itv.c71_partial_order", "Itv.c71_intersection_greatest", "Itv.c71_intersection_laws", "Itv.c71_absorption", "Itv.c71_contains_iff", "Itv.c71_merge_laws", "Itv.c71_distributes"], "note": "Equations between reported bounds, so no density assumption. Proved by mapping bounds to cuts of the line."},
  {"property": "C72", "status": "proved", "theorems": ["Itv.c72_order_preserving", "Itv.c72_order_reversing", "Itv.c72_neg", "Itv.c72_compose", "Itv.c72_laws"], "note": "Operators are strictly monotone functions that do not panic; overflow is C41, multiplication by zero C37, truncating division C38."},
  {"property": "C73", "status": "proved", "theorems": ["Itv.c73_strict_order", "Itv.c73_through_value", "Itv.c73_parts", "Itv.c73_trichotomy", "Itv.c73_sorted"], "note": "Case analysis over a linear order; the list statement by induction. <= itself is not antisymmetric and disagrees with partial_cmp, see C32."},
  {"property": "C74", "status": "proved", "theorems": ["CB.c74_elements_stay_in_place", "CB.c74_few_slots"], "note": "Addresses are slots of the backing slice; the calls that are meant to move elements (resize, linearize, swap, reverse) are excluded by the predicate Still. Budget of slots per call in slotBudget."},
  {"property": "C75", "status": "partial", "theorems": ["CB.c75_from_iter_leaks", "CB.c75_from_iter_partial"], "note": "False of the code: from_iter collects into a Vec of ManuallyDrop, whose drop does nothing, so a panic of the iterator or of a clone leaks the items consumed so far (c75_from_iter_leaks). Proved: nothing is dropped in any case, so nothing is dropped twice, and on success everything is in the buffer."},
  {"property": "C76", "status": "proved", "theorems": ["Cnt.c76_sub_sub", "Cnt.c76_extend_is_add", "Cnt.c76_from_iter_append"], "note": "The no-overflow hypotheses are needed: with wrapping b + c may be smaller than b."},
  {"property": "C77", "status": "proved", "theorems": ["CB.c77_push_pop", "CB.c77_rotate", "CB.c77_mirror"], "note": "rotateLeftBy and rotateRightBy are client loops over pop and push written in the property file."},
  {"property": "C78", "status": "proved", "theorems": ["DS.c78_union_is_local", "DS.c78_stays_joined", "DS.c78_only_union_joins"], "note": "Stated with the answers of in_union and contains before and after, without the abstract state; x and y may be new."},
  {"property": "C79", "status": "proved", "theorems": ["Cnt.c79_add_assign", "Cnt.c79_sub_assign", "Cnt.c79_between"], "note": "The panic is a flag after the entries the iteration got to (IterUpTo). A panic of Hash while the standard map grows is not modelled. Built (C50) includes counters left behind by interrupted calls."},
  {"property": "C80", "status": "proved", "theorems": ["Cnt.c80_order_unobservable", "Cnt.c80_can_run"], "note": "Executions are a relation that picks an order at every iteration; c80_can_run shows every program has one. An overflow ends the program: what it leaves behind does depend on the order (C79)."},
  {"property": "C81", "status": "proved", "theorems": ["CB.c81_only_content_matters", "CB.c81_slices_join", "CB.c81_slices_split"], "note": "slices and Debug show the position in memory and are not among the calls (C10 says what slices shows)."},
  {"property": "C82", "status": "proved", "theorems": ["Itv.c82_equal_hash", "Itv.c82_prefix_free"], "note": "The hasher's input is a list of numbers: discriminant, bound values through an arbitrary function, flags."},
  {"property": "C83", "status": "proved", "theorems": ["CB.c83_debug_text", "CB.c83_debug_tells_len", "CB.c83_debug_hides_content"], "note": "Decimal numerals are Nat.repr. The third theorem is a pair of witnesses that the text does not determine, and is not determined by, the content."},
  {"property": "C84", "status": "proved", "theorems": ["CB.c84_refused_types_have_no_buffers", "CB.c84_refusal_is_the_reason"], "note": "Which types are refused is a parameter of the model (Elem.uninitOk). All theorems about reachable buffers are about types that are not refused; this is part of the representation invariant and is proved, not assumed."},
  {"property": "C85", "status": "partial", "theorems": ["CB.c85_from_full_vec_is_ub", "CB.c85_from_vec_partial", "CB.c85_other_constructors_only_panic"], "note": "False of the code: c85_from_full_vec_is_ub, for every sized element type with a destructor (feasible on 32-bit targets with a 2 GiB vector). Partial: From<Vec> with room, with elements that need no destructor, or with a refused element type; all other constructors in full."},
  {"property": "C86", "status": "proved", "theorems": ["Itv.c86_span", "Itv.c86_merge", "Itv.c86_intersection"], "note": "Comparisons are numbered; every number at which the panic may strike is covered. The same panic inside an assigning operator is part of C42."},
  {"property": "C87", "status": "proved", "theorems": ["DS.c87_indistinguishable", "DS.c87_in_union_tells_all"], "note": "Histories start from new or from_iter and have at most usize::MAX elements at any time; results of iteration are compared as sets of groups."},
  {"property": "C88", "status": "proved", "theorems": ["Cnt.c88_modulo", "Cnt.c88_stored_zero", "Cnt.c88_never_panics"], "note": "Tally carries the true counts as unbounded numbers through every counting and adding call; subtraction is left to C50."},
  {"property": "C89", "status": "proved", "theorems": ["Itv.Key.c89_up_to_keys", "Itv.Key.c89_span", "Itv.Key.c89_intersection", "Itv.Key.c89_forms_agree_iff"], "note": "Itv/ModelKey.lean models the methods again with values compared by a key; an empty operand is covered by c89_up_to_keys only up to keys."},
  {"property": "C90", "status": "proved", "theorems": ["Cnt.Key.c90_up_to_keys", "Cnt.Key.c90_made_up_to_keys", "Cnt.Key.c90_kept", "Cnt.Key.c90_kept_overflow", "Cnt.Key.c90_from_iter", "Cnt.Key.c90_sum", "Cnt.Key.c90_sums_agree_iff", "Cnt.Key.c90_difference", "Cnt.Key.c90_from_map", "Cnt.Key.c90_most_common"], "note": "Cnt/ModelKey.lean models the methods again with items compared by a key. c90_kept covers calls that return or are interrupted, c90_kept_overflow an overflow panic."},
  {"property": "C91", "status": "proved", "theorems": ["DS.Key.c91_answers", "DS.Key.c91_iterate", "DS.Key.c91_kept", "DS.Key.c91_until_clear"], "note": "DS/ModelKey.lean models the methods again with elements compared by a key. The answers are for at most usize::MAX elements; what is kept has no such condition."},
  {"property": "C92", "status": "proved", "theorems": ["Itv.c92_ends", "Itv.c92_unique", "Itv.c92_points", "Itv.c92_pieces_dense", "Itv.c92_sweep"], "note": "MergeStep is a client that takes any two intervals out of a list, merges them with into_merged and puts the result back; sweep is a client that makes one pass."},
  {"property": "C93", "status": "proved", "theorems": ["Itv.c93_step", "Itv.c93_chain", "Itv.c93_machine", "Itv.c93_wrapping_loses_points"], "note": "Step is one operator with its fixed right operand. Orderly speaks only about values on which the operator returns, so rounding, saturating and panicking operators are included."},
  {"property": "C94", "status": "proved", "theorems": ["DS.Wild.c94_answers", "DS.Wild.c94_from_iter", "DS.Wild.c94_no_other_panic", "DS.Wild.c94_lawful_is_a_case"], "note": "DS/ModelWild.lean models the methods again with the outcome of every lookup as an arbitrary argument: any stored entry or none. Assumed of the standard table: a lookup changes nothing, insertion into a vacant entry stores the value, iteration shows every stored entry once. c94_lawful_is_a_case shows that the usual model is a special case."},
  {"property": "C95", "status": "proved", "theorems": ["Cnt.Wild.c95_call", "Cnt.Wild.c95_total", "Cnt.Wild.c95_modulo", "Cnt.Wild.c95_no_other_panic", "Cnt.Wild.c95_from_iter", "Cnt.Wild.c95_most_common", "Cnt.Wild.c95_operators", "Cnt.Wild.c95_lawful_is_a_case", "Cnt.Wild.c95_conversion_loses", "Cnt.Wild.c95_conversion"], "note": "Cnt/ModelWild.lean models the methods that look items up again with the outcome of every lookup as an arbitrary argument: any stored entry or none. Assumed of the standard table: a lookup changes nothing, removal removes the found entry, iteration shows every stored entry once. c95_lawful_is_a_case shows that the usual model is a special case; c95_conversion_loses is the witness for the one exception named in the statement."},
  {"property": "C96", "status": "proved", "theorems": ["Itv.Wild.c96_in_place", "Itv.Wild.c96_by_value", "Itv.Wild.c96_questions", "Itv.Wild.c96_cautious", "Itv.Wild.c96_lawful_is_a_case", "Itv.Wild.c96_fix", "Itv.Wild.c96_limits"], "note": "Itv/ModelWild.lean models the methods that compare values again; the answer to the k-th comparison of a run is an arbitrary function that may panic. c96_in_place, c96_by_value, c96_fix and c96_questions hold for all answers; c96_cautious gives exact results when cmp is a linear order and the operators never claim more than it; c96_limits has the witnesses for the panic of into_intersection and for ill-formed results; c96_lawful_is_a_case ties the model to Itv/Model.lean."},
  {"property": "C97", "status": "partial", "theorems": ["Cnt.Cost.c97_calls", "Cnt.Cost.c97_initialization", "Cnt.Cost.c97_most_common_partial", "Cnt.Cost.c97_most_common_lower", "Cnt.Cost.c97_most_common_not_linear"], "note": "False of the code in its last sentence: most_common sorts, and c97_most_common_not_linear shows that no factor f makes f*k comparisons enough, whatever comparison sort is used (c97_most_common_lower: log2 k! in some iteration order). The rest holds in full: c97_calls, c97_initialization; c97_most_common_partial ties the comparisons of most_common to those of its sort. Cnt/ModelCost.lean counts searches of the table and clones; the cost of one search is not modelled."},
  {"property": "C98", "status": "proved", "theorems": ["Cnt.c98_counter", "Cnt.c98_counter_not_unique", "DS.c98_disjoint_set", "DS.c98_disjoint_set_not_unique", "Itv.c98_interval", "Itv.c98_needs_texts"], "note": "Rust/Fmt.lean has the texts std's builders write for {:?}; */ModelDebug.lean the derived impls. Itv.c98_interval, Cnt.c98_counter, DS.c98_disjoint_set: equal texts mean equal things. c98_needs_texts: the assumption on the texts of values is needed. c98_counter_not_unique and c98_disjoint_set_not_unique are the witnesses for the last sentence. {:#?} is C102; formatting flags are not modelled."},
  {"property": "C99", "status": "partial", "theorems": ["Cnt.Mem.c99_contents", "Cnt.Mem.c99_refused_hint", "Cnt.Mem.c99_no_growth", "Cnt.Mem.c99_with_capacity", "Cnt.Mem.c99_plus", "Cnt.Mem.c99_minus", "Cnt.Mem.c99_subtraction_may_grow", "Cnt.Mem.c99_never_given_back", "Cnt.Mem.c99_memory_partial", "Cnt.Mem.c99_from_iter", "Cnt.Mem.c99_memory_not_linear"], "note": "False of the code in its last sentence: from_iter and extend reserve room for the announced items, equal or not (c99_memory_not_linear: for every factor f there are equal items whose counter has room for more than f times its items). c99_memory_partial is the bound that holds: different items plus the largest announcement. The rest holds in full: c99_contents, c99_refused_hint, c99_with_capacity, c99_no_growth (an equivalence), c99_from_iter, c99_plus, c99_minus, c99_never_given_back. c99_subtraction_may_grow: the promise of with_capacity says nothing once items are removed. Map/Memory.lean has the contract of capacities: Std is any allocator, deciding anew at every request."},
  {"property": "C100", "status": "partial", "theorems": ["DS.Mem.c100_contents", "DS.Mem.c100_refused_partial", "DS.Mem.c100_refused_push_breaks", "DS.Mem.c100_with_capacity", "DS.Mem.c100_no_growth", "DS.Mem.c100_reserve", "DS.Mem.c100_never_given_back", "DS.Mem.c100_memory_partial", "DS.Mem.c100_from_iter", "DS.Mem.c100_memory_not_linear", "DS.Mem.c100_refused_push_spares"], "note": "False of the code in two places. Memory: as in C99 (c100_memory_not_linear, c100_memory_partial). Refused requests: make_or_get_set inserts the key in the map before it pushes on the vector; if the vector is refused memory then, the set is broken until it is cleared (c100_refused_push_breaks: the element is contained, in_union and union with it and every iteration panic, and so for every element added later; c100_refused_push_spares: the elements that were there before still answer as they should, connected as before and by later unions among themselves). c100_refused_partial: if a full vector is always granted one more element, any history with refusals is a history without, with panicking keys in place of the refusals. The rest holds in full: c100_contents, c100_with_capacity, c100_no_growth (an equivalence), c100_reserve, c100_from_iter, c100_never_given_back."},
  {"property": "C101", "status": "proved", "theorems": ["CB.Cost.c101_counted_is_the_model", "CB.Cost.c101_constant_time", "CB.Cost.c101_linear_time", "CB.Cost.c101_append", "CB.Cost.c101_with_capacity", "CB.Cost.c101_memory", "CB.Cost.c101_no_allocation", "CB.Cost.c101_nothing_is_free", "CB.Cost.c101_linear_time_tight"], "note": "Steps and requests for memory are counted in CB/ModelCost.lean, a second copy of the methods; c101_counted_is_the_model shows that it has the same results, panics and buffers as the model. A step is a piece of code without loops; slice::rotate_left takes a step for each slot. Requests of the constructors from iterators and vectors are not counted."},
  {"property": "C102", "status": "proved", "theorems": ["Cnt.c102_counter", "DS.c102_disjoint_set", "Itv.c102_interval"], "note": "The texts are those of the builders of std::fmt, nested to any depth; formatting flags other than # are not modelled."},
  {"property": "C103", "status": "proved", "theorems": ["Cnt.Rehash.c103_each_key_alone", "Cnt.Rehash.c103_sound", "Cnt.Rehash.c103_spared_key", "Cnt.Rehash.c103_never_more", "Cnt.Rehash.c103_may_lose_all", "Cnt.Rehash.c103_same_calls"], "note": "The standard library does not document which entries it drops; the model lets it drop any. c103_same_calls ties the calls that lose nothing to the model of the other properties."},
  {"property": "C104", "status": "proved", "theorems": ["Itv.c104_intersection", "Itv.c104_intersection_order", "Itv.c104_pairs_decide", "Itv.c104_common_value_dense", "Itv.c104_span", "Itv.c104_span_dense", "Itv.c104_span_order"], "note": "meetAll and spanAll are loops as a client writes them; the crate has no functions for collections. For types with gaps a common part need not contain a value, as (1, 2) over the integers."},
  {"property": "C105", "status": "proved", "theorems": ["DS.c105_forest", "DS.c105_fewest", "DS.c105_lightest", "DS.c105_least_weight", "DS.c105_loop_is_picked"], "note": "The client's loop is part of the specification (SpecForest.lean); the hypothesis on the number of elements is that they fit in usize, as everywhere."},
  {"property": "C106", "status": "proved", "theorems": ["Client.c106_counts", "Client.c106_most_frequent", "Client.c106_range"], "note": "The client (Client/SpecWindow.lean) is part of the specification; destructors of the items do not panic. With capacity zero the claim would fail, as the counter still counts the item the buffer refuses."},
  {"property": "C107", "status": "proved", "theorems": ["Itv.c107_find_value", "Itv.c107_find_interval", "Itv.c107_query_is_contiguous"], "note": "The table and the binary search (SpecTable.lean) are a client's and part of the specification; the crate has none."},
  {"property": "C108", "status": "proved", "theorems": ["Cnt.c108_intersection", "Cnt.c108_union", "Cnt.c108_symmetric_difference", "Cnt.c108_inclusion", "Cnt.c108_missing"], "note": "A counter can have zero counts after access to its map or a wrapped overflow (C50); then the keys with zero counts stay in the differences."},
  {"property": "C109", "status": "proved", "theorems": ["Cnt.c109_top", "Cnt.c109_frequent"], "note": "Sorting is any function that meets the contract of sort_unstable_by_key."},
  {"property": "C110", "status": "proved", "theorems": ["DS.c110_accepts", "DS.c110_consequences", "DS.c110_two_colours"], "note": "The client's loop is part of the specification (SpecParity.lean). It has to add the elements before it calls in_union, because in_union is false of an unknown element and itself; otherwise it would accept v != v."},
  {"property": "C111", "status": "proved", "theorems": ["Cnt.c111_total", "Cnt.c111_counts", "Cnt.c111_same_as_any_plan", "Cnt.c111_same_as_collect"], "note": "Threads are not modelled: only that every part has its own counter, which Rust's ownership gives."},
  {"property": "C112", "status": "proved", "theorems": ["Cnt.Mem.c112_counter", "Cnt.Mem.c112_counter_linear", "Cnt.Mem.c112_counter_from_iter", "Cnt.Mem.c112_needs_doubling", "DS.Mem.c112_disjoint_set", "DS.Mem.c112_disjoint_set_linear"], "note": "That collections double is assumed of the standard library (Std.Doubles in Map/Memory.lean); c112_needs_doubling shows that it is needed."},
  {"property": "C113", "status": "proved", "theorems": ["DS.Mem.c113_same", "DS.Mem.c113_refused", "DS.Mem.c113_room", "DS.Mem.c113_memory", "DS.Mem.c113_linear"], "note": "Map and vectors are assumed to grow within a constant factor (Std.Modest) for the memory bound, and to double (Std.Doubles) for the bound on moves; for the other theorems nothing is assumed of the allocator."},
  {"property": "C114", "status": "proved", "theorems": ["Itv.c114_schedule", "Itv.c114_groups", "Itv.c114_values_dense", "Itv.c114_rooms", "Itv.c114_depth_dense"], "note": "The two greedy algorithms are client code, written in Itv/SpecSchedule.lean with the public functions of the crate. On types that are not dense, two intervals may intersect without a common value (C27), so the two statements about values need density."},
  {"property": "C115", "status": "proved", "theorems": ["Client.c115_spans", "Client.c115_in_union"], "note": "The client is written in Client/SpecCluster.lean with the public functions of the crate. An empty interval can be merged with every interval and would put all of them into one group; an example shows it."},
  {"property": "C116", "status": "proved", "theorems": ["Client.c116_maximum", "Client.c116_contents", "Client.c116_once"], "note": "The client is written in Client/SpecMax.lean with the public functions of the crate. Positions are counted in usize, hence stream.length + w \u2264 usizeMax; an example shows that capacity zero has to be excluded."},
  {"property": "C117", "status": "proved", "theorems": ["DS.c117_rank_reached", "DS.c117_one_call", "DS.c117_one_union", "DS.c117_one_call_reached"], "note": "The histories build binomial trees by uniting roots of equal rank, so that no path is compressed (DS/Sharp.lean)."},
  {"property": "C118", "status": "proved", "theorems": ["Itv.c118_add", "Itv.c118_remove", "Itv.c118_history", "Itv.c118_one_form", "Itv.c118_fewest"], "note": "The client is a definition of its own (Itv/SpecSet.lean); the crate has no set type."},
  {"property": "C119", "status": "proved", "theorems": ["Client.c119_rearranged"], "note": "The client is a definition of its own (Client/SpecAnagram.lean)."},
  {"property": "C120", "status": "proved", "theorems": ["Client.c120_shortest"], "note": "The client is a definition of its own (Client/SpecBfs.lean). Vertices are Copy. An example shows that a smaller queue loses vertices."},
  {"property": "C121", "status": "proved", "theorems": ["DS.c121_bottleneck", "DS.c121_forest_keeps"], "note": "The client is a definition of its own (DS/SpecBottleneck.lean). That x and y are not connected before is a hypothesis: the client asks only after a union."},
  {"property": "C122", "status": "proved", "theorems": ["Cnt.Mem.c122_from_map", "Cnt.Mem.c122_most_common"], "note": "That iterators of maps announce exactly what they yield, and that from_iter of HashMap and Vec asks for the announced room first, is the behaviour of std as modelled in Cnt/ModelMemOut.lean."},
  {"property": "C123", "status": "proved", "theorems": ["CB.c123_in_order", "CB.c123_nothing_lost"], "note": "Calls and the unbounded queue are definitions of their own (CB/SpecQueue.lean). Destructors that panic are excluded: they leave behind what C09 describes."},
  {"property": "C124", "status": "proved", "theorems": ["CB.c124_iter", "CB.c124_iter_mut", "CB.c124_drain_nth", "CB.c124_drain_nth_panics", "CB.c124_drain_count", "CB.c124_drain_count_panics", "CB.c124_drain_last", "CB.c124_drain_for"], "note": "The bodies of the methods of Chain and of the provided methods of Iterator are those of std, modelled in CB/ModelIter.lean. last() with a destructor that panics is left out: what becomes of the value that was about to be returned is not documented."},
  {"property": "C125", "status": "proved", "theorems": ["CB.c125_slices_mut", "CB.c125_linearize", "CB.c125_sort", "CB.c125_sort_panics"], "note": "Client code is an arbitrary function of the elements that keeps the length of the slices (CB/ModelSlices.lean). Values that it takes out or puts in are its own affair; the buffer drops none."},
  {"property": "C126", "status": "proved", "theorems": ["CB.c126_conservation", "CB.c126_nothing_twice"], "note": "Events and the world are definitions of their own (CB/SpecWorld.lean). Constructions that are refused memory are not events here; C85 is about them."},
  {"property": "C127", "status": "proved", "theorems": ["Itv.c127_min_max", "Itv.c127_clamp_lower", "Itv.c127_clamp_upper"], "note": "The bodies of min, max and clamp are those std provides."},
  {"property": "C128", "status": "proved", "theorems": ["CB.c128_turn", "CB.c128_retain", "CB.c128_retain_panics", "CB.c128_insert", "CB.c128_remove"], "note": "The loops are client code over the modelled calls."},
  {"property": "C129", "status": "proved", "theorems": ["CB.c129_operators", "CB.c129_incomparable", "CB.c129_max_min", "CB.c129_clamp", "CB.c129_max_of_many", "CB.c129_min_of_many"], "note": "The bodies of the operators, max, min, clamp and Iterator::max are those std provides; destructors that panic inside max, min and clamp are left out."},
  {"property": "C130", "status": "proved", "theorems": ["DS.c130_join", "DS.c130_meet"], "note": "The program is client code over the modelled calls; the elements' clone, hash and eq do not panic."},
  {"property": "C131", "status": "proved", "theorems": ["DS.Rehash.c131_histories", "DS.Rehash.c131_panics_cost_nothing"], "note": "The table follows hashbrown's reserve_rehash: in place if at most half full, where a panic may lose any entries, otherwise a move, where it loses none. That is std's present code, not its documentation."},
  {"property": "C132", "status": "proved", "theorems": ["Cnt.c132_counter", "Cnt.c132_counter_plain", "Cnt.c132_counter_fill", "DS.c132_disjoint_set", "DS.c132_disjoint_set_plain", "Itv.c132_interval", "Itv.c132_interval_plain", "Itv.c132_interval_precision"], "note": "The texts std::fmt writes are a model of its present code (pad, pad_integral, the debug builders). The fill characters excluded are enough for the proof; a closing bracket may do no harm."},
  {"property": "C133", "status": "proved", "theorems": ["CB.c133_boxes", "CB.c133_no_alias", "CB.c133_local"], "note": "References are modelled as positions in the backing slice, accesses go through memory. Rust's borrow rules beyond disjointness (when a borrow ends, provenance) are left to the compiler."},
  {"property": "C134", "status": "proved", "theorems": ["Itv.c134_interval_order", "Itv.c134_between", "Itv.c134_extension", "Itv.c134_elimination", "Itv.c134_chord", "Itv.c134_unwrap"], "note": "Sorting is any rearrangement in which no element compares Greater than a later one."},
  {"property": "C135", "status": "proved", "theorems": ["Itv.c135_cover", "Itv.c135_meets"], "note": "partition_point is the bisection of std; the sorted vectors are any sorted rearrangements of the bounds."},
  {"property": "C136", "status": "proved", "theorems": ["Client.c136_limit", "Client.c136_needed", "Client.c136_most"], "note": "Times are usize values that do not decrease; the client is code written with the public functions, shown in SpecRate.lean."},
  {"property": "C137", "status": "proved", "theorems": ["DS.c137_agree", "DS.c137_consequences"], "note": "Stack of at least 64 frames; the client is code written with the public functions, shown in SpecEquality.lean. Without extend an inequation of an unknown with itself would be accepted, as the example shows."},
  {"property": "C138", "status": "proved", "theorems": ["Client.c138_line", "Client.c138_edits"], "note": "The client is code written with the public functions, shown in SpecUndo.lean."},
  {"property": "C139", "status": "proved", "theorems": ["Cnt.c139_fewest", "Cnt.c139_metric", "Cnt.c139_common"], "note": "The client is code written with the public functions, shown in SpecDistance.lean; clone is taken to return an equal counter."},
  {"property": "C140", "status": "proved", "theorems": ["DS.c140_alike"], "note": "Stack of at least 64 frames; the client is code written with the public functions, shown in SpecAutomata.lean."},
  {"property": "C141", "status": "proved", "theorems": ["Client.c141_polls", "Client.c141_reader"], "note": "The client is code written with the public functions, shown in SpecBroadcast.lean; it runs in one thread."},
  {"property": "C142", "status": "proved", "theorems": ["Client.c142_rounds", "Client.c142_fair"], "note": "The client is code written with the public functions, shown in SpecRobin.lean."},
  {"property": "C143", "status": "proved", "theorems": ["DS.c143_cuts"], "note": "The client is code written with the public functions, shown in SpecCuts.lean."},
  {"property": "C144", "status": "proved", "theorems": ["Client.c144_recent", "Client.c144_inclusion", "Client.c144_first_in"], "note": "The client is code written with the public functions, shown in SpecRecent.lean and SpecTurn.lean. c144_first_in is a witness for the contrast, not a general claim."},
  {"property": "C145", "status": "proved", "theorems": ["Itv.c145_sound", "Itv.c145_unique", "Itv.c145_exact"], "note": "The client is code written with the public functions, shown in SpecNarrow.lean. Arithmetic is that of a group; machine integers that overflow are C41."},
  {"property": "C146", "status": "proved", "theorems": ["Cnt.c146_stock"], "note": "The client is code written with the public functions, shown in SpecStock.lean. missing.is_empty() is that of the map the counter derefs to."},
  {"property": "C147", "status": "proved", "theorems": ["Cnt.c147_summary", "Cnt.c147_frequent", "Cnt.c147_exact"], "note": "The client is code written with the public functions, shown in SpecFrequent.lean; len and keys are those of the map the counter derefs to."},
  {"property": "C148", "status": "proved", "theorems": ["Client.c148_arranged", "Client.c148_complete"], "note": "The client is code written with the public functions, shown in SpecOrder.lean."},
  {"property": "C149", "status": "proved", "theorems": ["Client.c149_sorted", "Client.c149_numbers"], "note": "The client is code written with the public functions, shown in SpecRadix.lean."},
  {"property": "C150", "status": "proved", "theorems": ["DS.c150_groups", "DS.c150_far_apart"], "note": "The client is code written with the public functions, shown in SpecCluster.lean."},
  {"property": "C151", "status": "proved", "theorems": ["DS.c151_follows", "DS.c151_one_world"], "note": "The client is code written with the public functions, shown in SpecCongruence.lean."},
  {"property": "C152", "status": "proved", "theorems": ["Client.c152_stable", "Client.c152_best", "Client.c152_order"], "note": "The client is code written with the public functions, shown in SpecMatch.lean; its map and list iterators are plain functions."},
  {"property": "C153", "status": "proved", "theorems": ["Client.c153_safe", "Client.c153_let_in", "Client.c153_reason", "Client.c153_progress", "Client.c153_empty_waits"], "note": "The client is code written with the public functions, shown in SpecLocks.lean; the vector of ranges held is a plain list."},
  {"property": "C154", "status": "proved", "theorems": ["Client.c154_first_once", "Client.c154_once"], "note": "The client is code written with the public functions, shown in SpecOnce.lean. Exactness needs room for the different items; an example shows that with less room a later item can be the answer."},
  {"property": "C155", "status": "proved", "theorems": ["Client.c155_delay", "Client.c155_sum", "Client.c155_series"], "note": "The client is code written with the public functions, shown in SpecDelay.lean. Values add like a commutative group (wrapping integers, or integers that do not overflow); floating point numbers do not."}
]}
