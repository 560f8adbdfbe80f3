{"id": "C01", "title": "NoditMap entries stay valid, ascending and disjoint", "statement": "After any sequence of NoditMap calls (strict/merging/overwriting inserts, cut, remove_overlapping, mutable access; arguments valid or not), iter() lists valid intervals in ascending order, and every point of an earlier entry is below every point of a later one.", "quantifier": "all lawful point types, lawful interval types and value types; all finite operation sequences with all arguments", "why_tests_cant": "The invariant ranges over unboundedly many histories and map sizes; the tests try a handful of 4-entry i8 maps.", "anchors": ["src/nodit/map.rs: NoditMap::insert_strict, cut, remove_overlapping, insert_merge_*, insert_overwrite, iter"]}
{"id": "C02", "title": "NoditMap panics exactly on invalid interval arguments", "statement": "In every state reachable by any call history, a NoditMap call panics iff it takes an interval argument and that interval is invalid (contains no point); none of the internal unwrap()/unreachable!() sites can fire.", "quantifier": "all reachable maps, all operations and arguments, including entries touching the type's MIN and MAX", "why_tests_cant": "Every unwrap on up()/down() would have to be exercised in every state; boundary states are rarely tested.", "anchors": ["src/nodit/map.rs: all methods", "src/utils.rs: invalid_interval_panic, config, cut_interval"]}
{"id": "C03", "title": "Point lookup returns the unique covering entry", "statement": "get_at_point, get_key_value_at_point (Ok) and contains_point find an entry iff some entry contains the point; the entry found is the only one containing it.", "quantifier": "all reachable maps, all points", "why_tests_cant": "Quantifies over all map contents and all points.", "anchors": ["src/nodit/map.rs: get_at_point, get_key_value_at_point, contains_point"]}
{"id": "C04", "title": "Failed point lookup returns the maximal gap", "statement": "If no entry contains the point, get_key_value_at_point returns Err(g) where g contains the point, no point of g is covered, and every interval of uncovered points that contains the point lies inside g.", "quantifier": "all reachable maps, all uncovered points", "why_tests_cant": "Maximality quantifies over all intervals; MIN/MAX boundaries are easily missed.", "anchors": ["src/nodit/map.rs: get_key_value_at_point, get_gap_at_raw"]}
{"id": "C05", "title": "overlapping/overlaps are exact", "statement": "overlapping(q) yields exactly the entries that share at least one point with q, in ascending order; overlaps(q) is true iff there is one.", "quantifier": "all reachable maps, all valid query intervals of any interval type", "why_tests_cant": "The tests check maps of at most two entries over five numbers.", "anchors": ["src/nodit/map.rs: overlapping, overlaps", "src/utils.rs: overlapping_comp"]}
{"id": "C06", "title": "insert_strict adds exactly one entry or refuses without effect", "statement": "insert_strict(k,v) returns Err carrying v and leaves the map unchanged iff an existing entry shares a point with k; otherwise it returns Ok and the entries afterwards are the old entries plus (k,v).", "quantifier": "all reachable maps, valid k, all v", "why_tests_cant": "Needs all maps and all intervals.", "anchors": ["src/nodit/map.rs: insert_strict"]}
{"id": "C07", "title": "remove_overlapping removes and returns exactly the overlapping entries", "statement": "remove_overlapping(q) returns, in ascending order, exactly the whole entries sharing a point with q; the remaining entries are exactly the others.", "quantifier": "all reachable maps, all valid q", "why_tests_cant": "Cursor loop over arbitrary many entries.", "anchors": ["src/nodit/map.rs: remove_overlapping"]}
{"id": "C08", "title": "cut splits every entry at the cut and loses nothing", "statement": "cut(q) returns, in ascending order, the part of every entry inside q with its value, and leaves exactly the parts outside q: an untouched entry stays, an overlapped entry leaves its non-empty part below q and its non-empty part above q with the same value. Point-wise: afterwards a point has its old value if outside q and none if inside.", "quantifier": "all reachable maps, all valid q (including q reaching MIN or MAX)", "why_tests_cant": "All relative positions at all sizes; boundary up/down handling.", "anchors": ["src/nodit/map.rs: cut", "src/utils.rs: cut_interval, config"]}
{"id": "C09", "title": "insert_overwrite is cut followed by a strict insert", "statement": "insert_overwrite(k,v) returns what cut(k) returns, and afterwards the map is what insert_strict(k,v) (which cannot fail) gives on the cut map: points in k map to v, all other points keep their value.", "quantifier": "all reachable maps, valid k, all v", "why_tests_cant": "Equivalence of two programs on all states.", "anchors": ["src/nodit/map.rs: insert_overwrite"]}
{"id": "C10", "title": "insert_merge_touching merges exactly the touching entries", "statement": "insert_merge_touching(k,v) refuses (Err(v), unchanged) iff an entry overlaps k; otherwise the entries touching k disappear, one entry with value v and exactly the points of k and of those entries is added and returned; all other entries are unchanged.", "quantifier": "all reachable maps, valid k, all v", "why_tests_cant": "Needs all neighbour configurations incl. MIN/MAX.", "anchors": ["src/nodit/map.rs: insert_merge_touching, insert_merge_with_comps", "src/utils.rs: touching_start_comp, touching_end_comp"]}
{"id": "C11", "title": "insert_merge_touching_if_values_equal merges exactly the equal-valued touching entries", "statement": "Same as insert_merge_touching but only touching entries whose value equals v are absorbed; touching entries with a different value stay.", "quantifier": "all reachable maps, valid k, all v, any equality test on values", "why_tests_cant": "All neighbour/value combinations.", "anchors": ["src/nodit/map.rs: insert_merge_touching_if_values_equal"]}
{"id": "C12", "title": "insert_merge_overlapping merges exactly the overlapping entries", "statement": "insert_merge_overlapping(k,v) always succeeds: the entries overlapping k disappear, one entry with value v and exactly the points of k and of those entries is added and returned; all other entries (including touching ones) are unchanged.", "quantifier": "all reachable maps, valid k, all v", "why_tests_cant": "Any number of overlapped entries.", "anchors": ["src/nodit/map.rs: insert_merge_overlapping"]}
{"id": "C13", "title": "insert_merge_touching_or_overlapping merges exactly the touching or overlapping entries", "statement": "As above with the entries that touch or overlap k.", "quantifier": "all reachable maps, valid k, all v", "why_tests_cant": "Any number of overlapped entries, both neighbours.", "anchors": ["src/nodit/map.rs: insert_merge_touching_or_overlapping"]}
{"id": "C14", "title": "gaps_untrimmed lists exactly the maximal gaps meeting the query", "statement": "gaps_untrimmed(q) yields, ascending, exactly the maximal runs of uncovered points that share a point with q.", "quantifier": "all reachable maps, all valid q", "why_tests_cant": "Maximality and completeness over all points.", "anchors": ["src/nodit/map.rs: gaps_untrimmed"]}
{"id": "C15", "title": "gaps_trimmed lists exactly the uncovered part of the query", "statement": "gaps_trimmed(q) yields, ascending, exactly the intersections with q of the maximal gaps meeting q; a point of q is in one of them iff it is uncovered.", "quantifier": "all reachable maps, all valid q", "why_tests_cant": "Same.", "anchors": ["src/nodit/map.rs: gaps_trimmed"]}
{"id": "C16", "title": "contains_interval decides full coverage", "statement": "contains_interval(q) is true iff every point of q is in some entry.", "quantifier": "all reachable maps, all valid q", "why_tests_cant": "Quantifies over all points of q.", "anchors": ["src/nodit/map.rs: contains_interval"]}
{"id": "C17", "title": "from_iter_strict succeeds iff the input is pairwise disjoint, regardless of order", "statement": "from_iter_strict/from_slice_strict on valid intervals succeeds iff no two items overlap; the result holds exactly the given entries and does not depend on the order of the input; on failure the error carries the value of the first item overlapping an earlier one.", "quantifier": "all finite sequences of entries and all permutations", "why_tests_cant": "Order independence ranges over all permutations.", "anchors": ["src/nodit/map.rs: from_iter_strict, from_slice_strict"]}
{"id": "C18", "title": "len, is_empty, first, last and iteration agree", "statement": "len() is the number of entries iterated, is_empty() iff none; first_key_value/last_key_value are the entries with the least/greatest points; into_iter yields the same sequence as iter.", "quantifier": "all reachable maps", "why_tests_cant": "All states.", "anchors": ["src/nodit/map.rs: len, is_empty, first_key_value, last_key_value, iter, into_iter"]}
{"id": "C19", "title": "Mutable access changes only the selected values", "statement": "get_at_point_mut, overlapping_mut and iter_mut let the caller change the values of exactly the entry at the point / the entries overlapping the query / all entries; no interval and no other value changes.", "quantifier": "all reachable maps, points, queries and all update functions", "why_tests_cant": "All states and updates.", "anchors": ["src/nodit/map.rs: get_at_point_mut, overlapping_mut, iter_mut"]}
{"id": "C20", "title": "Any NoditMap history behaves like a plain set of entries", "statement": "For every operation sequence, outputs and contents coincide with a reference machine whose state is just a set of (interval, value) entries and whose steps are written point-wise (no tree, comparator or cursor).", "quantifier": "all operation sequences", "why_tests_cant": "Refinement over unbounded histories.", "anchors": ["src/nodit/map.rs: all mutating methods"]}
{"id": "C21", "title": "Any point-wise NoditMap history behaves like a partial function", "statement": "For histories of insert_strict, insert_overwrite, insert_merge_touching_if_values_equal and cut, interleaved with any queries (arguments valid or not), get_at_point and contains_point after the history equal those of a reference partial function point -> value updated point-wise (last write wins; a strict insert writes only if all its points are free). (The other merging inserts change the values of neighbouring entries, so their effect is not determined point-wise; they are covered by C20.)", "quantifier": "all such operation sequences, all points", "why_tests_cant": "Unbounded histories.", "anchors": ["src/nodit/map.rs: insert_strict, insert_overwrite, cut, get_at_point"]}
{"id": "C22", "title": "NoditSet behaves like a set of points", "statement": "For every history of NoditSet inserts and cuts the covered points equal a reference point-set: overwriting/merging inserts add the interval's points, strict inserts add them iff none is covered, cut removes them; every NoditSet query and update equals its point-wise specification on the listed intervals, and panics occur only on invalid intervals. Moreover every history of calls of all NoditSet methods gives, call by call, exactly the results (errors, returned intervals, gaps, lookups, panics) of a plain set of intervals, which determines them uniquely.", "quantifier": "all NoditSet operation sequences, with all methods and all arguments", "why_tests_cant": "Unbounded histories.", "anchors": ["src/nodit/set.rs: NoditSet"]}
{"id": "C23", "title": "Interval constructors build exactly the documented point set or panic exactly when it is empty", "statement": "uu/ui/ue/iu/eu/ii/ie/ei/ee return an interval containing exactly the points satisfying both bounds, and panic iff no point satisfies them.", "quantifier": "all lawful point types, all bounds incl. MIN and MAX", "why_tests_cant": "All bounds of all types.", "anchors": ["src/interval.rs: uu, ui, ue, iu, eu, ii, ie, ei, ee"]}
{"id": "C24", "title": "Interval algebra matches set algebra of points", "statement": "On valid intervals: overlaps iff a common point exists (hence symmetric); intersection is Some of exactly the common points, or None iff there are none; contains_point, contains_interval, is_singular, is_valid match membership, inclusion, one-point and non-emptiness.", "quantifier": "all pairs of valid intervals of any interval types", "why_tests_cant": "Quadratic over unbounded domains.", "anchors": ["src/interval.rs: InclusiveInterval", "src/utils.rs: config, sorted_config"]}
{"id": "C25", "title": "Range conversions round-trip", "statement": "Interval -> RangeInclusive -> Interval and Interval -> Range -> Interval are the identity; the Range conversion panics iff the interval ends at MAX; conversion from a range gives exactly the range's points and panics iff its end-points span none. The range of an interval yields its points, each once, from the two ends inwards; a RangeInclusive that has been partly iterated converts to exactly the points it has left; one that has been iterated to its end is empty but does not panic: it converts to the last point it yielded.", "quantifier": "all valid intervals, all ranges, all sequences of next and next_back on a range before it is converted", "why_tests_cant": "Boundary MAX, and every state iteration can leave a range in.", "anchors": ["src/interval.rs: impl From"]}
{"id": "C26", "title": "translate and width are exact or overflow", "statement": "On the primitive integer types translate(d) contains exactly the points shifted by d and width is the distance between the ends; the only failure is integer overflow of an end-point (panic with overflow checks).", "quantifier": "all integer types, intervals and deltas", "why_tests_cant": "All integers.", "anchors": ["src/interval.rs: translate, width"]}
{"id": "C27", "title": "translate keeps intervals valid in builds without overflow checks", "statement": "Every Interval value obtained by translate from a valid one is valid ('only valid intervals can be constructed'), also in release builds where + wraps.", "quantifier": "all integer types, intervals and deltas", "why_tests_cant": "Only overflow cases matter.", "anchors": ["src/interval.rs: translate"]}
{"id": "C28", "title": "up/down are successor/predecessor on every primitive integer type", "statement": "For each primitive implementing DiscreteFinite, up(x) is the least value above x and None only at MAX, down symmetrically, MIN and MAX bound all values; so these types satisfy everything the other properties assume of a point type.", "quantifier": "all values of u8..u128, i8..i128, usize of any width", "why_tests_cant": "2^128 values.", "anchors": ["src/discrete_finite.rs: foo!"]}
{"id": "C29", "title": "The README's WithInfinity wrapper is a lawful point type", "statement": "If T is a lawful discrete finite type then WithInfinity<T> with the README implementation is one too.", "quantifier": "all lawful T", "why_tests_cant": "Generic over T.", "anchors": ["README.md: WithInfinity"]}
{"id": "C30", "title": "Gqdit tracks per-point identifier sets exactly", "statement": "After any history of insert, cut_with_identifiers, cut_all_identifiers and append (receiving side), identifiers_at_point(p) equals a reference function point -> identifier set updated point-wise.", "quantifier": "all operation histories, all points", "why_tests_cant": "Unbounded histories.", "anchors": ["src/gqdit/mod.rs: insert, cut_with_identifiers, cut_all_identifiers, append, identifiers_at_point"]}
{"id": "C31", "title": "gaps_no_identifier lists exactly the maximal free runs", "statement": "gaps_no_identifier(q) yields, ascending, exactly the maximal runs of points with no identifier that share a point with q.", "quantifier": "all Gqdit states reachable from new(), all valid q", "why_tests_cant": "Relies on the structure never being fragmented, for every history.", "anchors": ["src/gqdit/mod.rs: gaps_no_identifier"]}
{"id": "C32", "title": "gaps_with_identifier lists exactly the maximal runs free for that identifier", "statement": "gaps_with_identifier(d,q) yields, ascending, exactly the maximal runs of points whose identifier set is contained in {d} that share a point with q.", "quantifier": "all Gqdit states reachable from new(), all d, valid q", "why_tests_cant": "End expansion and coalescing over arbitrary many pieces.", "anchors": ["src/gqdit/mod.rs: gaps_with_identifier, expand_gaps_at_point_left/right"]}
{"id": "C33", "title": "Gqdit representation is canonical", "statement": "Two Gqdits reached from new() by any histories compare equal iff identifiers_at_point agrees at every point; hence inserting in any order, repeatedly or in pieces gives equal structures.", "quantifier": "all pairs of histories", "why_tests_cant": "Ranges over pairs of histories.", "anchors": ["src/gqdit/mod.rs: PartialEq, insert"]}
{"id": "C34", "title": "Gqdit operations panic exactly on invalid intervals", "statement": "In every state reached from new(), Gqdit calls panic iff the interval argument is invalid; the internal unwrap/panic! sites cannot fire.", "quantifier": "all reachable states and arguments", "why_tests_cant": "Internal unwraps on all boundaries.", "anchors": ["src/gqdit/mod.rs"]}
{"id": "C35", "title": "append moves everything and leaves other usable", "statement": "After a.append(&mut b): identifiers_at_point on a is the union of both; b holds no identifiers and behaves like a fresh Gqdit (its gaps and later inserts work).", "quantifier": "all reachable a, b and all later histories of b", "why_tests_cant": "Needs later histories of b.", "anchors": ["src/gqdit/mod.rs: append"]}
{"id": "C36", "title": "ZosditMap entries stay a zero-overlap sequence", "statement": "After any history of ZosditMap calls, iter() lists valid intervals such that every earlier entry ends at or before the start of every later one (so two entries never share more than an end point, and no point interval lies inside another entry).", "quantifier": "all operation histories and arguments", "why_tests_cant": "Unbounded histories.", "anchors": ["src/zosdit/map.rs: insert_strict_back, cut, remove_last_value_at_point, iter"]}
{"id": "C37", "title": "ZosditMap panics exactly on invalid intervals", "statement": "In every reachable state ZosditMap calls panic iff the interval argument is invalid; unreachable!(), unwrap() and the length subtraction cannot fail.", "quantifier": "all reachable states and arguments", "why_tests_cant": "Comparator unreachable! arms over all configurations.", "anchors": ["src/zosdit/map.rs: insert_strict_back, cut, remove_last_value_at_point"]}
{"id": "C38", "title": "is_zero_overlap decides exactly the documented relation", "statement": "is_zero_overlap(q) is true iff q zero-overlaps every entry: they share no point, or share a single point which is an end point of both (a singular interval strictly inside the other is not allowed).", "quantifier": "all reachable maps, all valid q", "why_tests_cant": "The author had 'to draw all the combinations'; tests have 19 cases.", "anchors": ["src/zosdit/map.rs: is_zero_overlap", "src/zosdit/mod.rs"]}
{"id": "C39", "title": "insert_strict_back inserts at the back", "statement": "insert_strict_back(k,v) fails (Err(v), unchanged) iff k does not zero-overlap the map; otherwise exactly (k,v) is added to the iteration sequence, after all entries with an identical interval and in interval order.", "quantifier": "all reachable maps, valid k, all v", "why_tests_cant": "Order of equal intervals after arbitrary histories.", "anchors": ["src/zosdit/map.rs: insert_strict_back"]}
{"id": "C40", "title": "get_last_value_at_point returns the last value at the point", "statement": "get_last_value_at_point(p) is the value of the last entry in iteration order whose interval contains p, and None iff there is none.", "quantifier": "all reachable maps, all points", "why_tests_cant": "All maps and points.", "anchors": ["src/zosdit/map.rs: get_last_value_at_point"]}
{"id": "C41", "title": "remove_last_value_at_point removes exactly what get_last_value_at_point reports", "statement": "remove_last_value_at_point(p) returns the same value as get_last_value_at_point(p) and removes exactly that one entry from the iteration sequence (nothing if None).", "quantifier": "all reachable maps, all points", "why_tests_cant": "All maps and points.", "anchors": ["src/zosdit/map.rs: remove_last_value_at_point"]}
{"id": "C42", "title": "ZosditMap::len counts the entries", "statement": "len() equals the number of entries iter() yields and is_empty() iff there are none, after any history.", "quantifier": "all histories", "why_tests_cant": "The counter is maintained by hand across operations.", "anchors": ["src/zosdit/map.rs: len, is_empty"]}
{"id": "C43", "title": "ZosditMap::cut cuts every overlapping entry", "statement": "cut(q) returns, in order, the part inside q of every entry overlapping q, with all its values, and leaves exactly the parts outside q.", "quantifier": "all reachable maps, all valid q", "why_tests_cant": "All configurations.", "anchors": ["src/zosdit/map.rs: cut"]}
{"id": "C44", "title": "ZosditMap::overlapping is exact", "statement": "overlapping(q) yields exactly the entries sharing a point with q, in iteration order.", "quantifier": "all reachable maps, all valid q", "why_tests_cant": "All configurations.", "anchors": ["src/zosdit/map.rs: overlapping"]}
{"id": "C45", "title": "from_iter_strict_back replays the inserts", "statement": "from_iter_strict_back succeeds iff every item zero-overlaps all earlier ones; entries with an identical interval come out in input order, all with the key given first for that interval.", "quantifier": "all finite sequences", "why_tests_cant": "All sequences.", "anchors": ["src/zosdit/map.rs: from_iter_strict_back"]}
{"id": "C46", "title": "NoditMap/NoditSet serde round trip", "statement": "Deserialising the serialised sequence of any reachable NoditMap or NoditSet gives back an equal map or set; the announced length is the number of elements.", "quantifier": "all reachable maps", "why_tests_cant": "All states.", "anchors": ["src/nodit/map.rs: mod serde", "src/nodit/set.rs: mod serde"]}
{"id": "C47", "title": "Deserialisation rejects bad input with an error and never panics", "statement": "Deserialising any sequence of elements either yields a well-formed map holding exactly these entries, or an error (overlap or element error).", "quantifier": "all input sequences including invalid intervals and undecodable elements", "why_tests_cant": "Untrusted input space.", "anchors": ["src/nodit/map.rs: mod serde", "src/zosdit/map.rs: mod serde", "src/nodit/set.rs: mod serde"]}
{"id": "C48", "title": "ZosditMap serde round trip", "statement": "Deserialising the serialised form of any reachable ZosditMap gives an equal map, and the announced length is right.", "quantifier": "all reachable maps", "why_tests_cant": "All histories.", "anchors": ["src/zosdit/map.rs: mod serde"]}
{"id": "C49", "title": "Gqdit deserialisation yields a working Gqdit", "statement": "Round trip gives an equal Gqdit; any successfully deserialised Gqdit covers every point (so inserts and gap queries work).", "quantifier": "all inputs", "why_tests_cant": "Input space.", "anchors": ["src/gqdit/mod.rs: mod serde"]}
{"id": "C50", "title": "Results do not depend on the B-tree's shape", "statement": "For every comparator nodit passes to the B-tree in a reachable map, every search tree with the same in-order contents gives the same lookup, removal, update, insertion, cursor and range results as the flat sequence. The one exception is ZosditMap::insert_strict_back after cut has left several stores for the same point interval: there the tree shape chooses the store.", "quantifier": "all tree shapes, all reachable maps, all comparators used", "why_tests_cant": "Tree shapes depend on the whole history and node capacity.", "anchors": ["src/utils.rs: comparators", "src/nodit/map.rs: uses of self.inner", "src/zosdit/map.rs: uses of self.inner"]}
{"id": "C51", "title": "ZosditMap first/last agree with iteration", "statement": "first_key_value() and last_key_value() are the first and last element of iter() (None iff iter() is empty), after any history.", "quantifier": "all histories", "why_tests_cant": "They go through the per-interval value stores; a store left empty by a removal would make them wrong.", "anchors": ["src/zosdit/map.rs: first_key_value, last_key_value"]}
{"id": "C52", "title": "NoditSet built by merging inserts is canonical", "statement": "After any history of insert_merge_touching_or_overlapping, insert_merge_touching, cut, remove_overlapping and queries from new(), the intervals of a NoditSet are exactly the maximal runs of contained points; two sets with such histories that contain the same points are equal (same iter()).", "quantifier": "all histories of coalescing operations, all point types", "why_tests_cant": "The histories and orders of calls are unbounded.", "anchors": ["src/nodit/set.rs: insert_merge_touching_or_overlapping, insert_merge_touching, cut, remove_overlapping", "src/nodit/map.rs: insert_merge_touching_or_overlapping, insert_merge_touching"]}
{"id": "C53", "title": "NoditMap built by value-merging inserts is canonical", "statement": "After any history of insert_merge_touching_if_values_equal, cut, remove_overlapping and queries from new(), the entries of a NoditMap are exactly the maximal runs of points with equal values; two maps with such histories and the same point-wise contents have the same entries.", "quantifier": "all histories of coalescing operations, all point and value types with lawful equality", "why_tests_cant": "The histories and orders of calls are unbounded.", "anchors": ["src/nodit/map.rs: insert_merge_touching_if_values_equal, cut, remove_overlapping"]}
{"id": "C54", "title": "cut is idempotent", "statement": "After cut(q), a further cut of q or of any part of it returns nothing and changes nothing; nothing overlaps q any more.", "quantifier": "all well-formed maps (C01), all q and parts of q", "why_tests_cant": "All map contents and all pairs of intervals.", "anchors": ["src/nodit/map.rs: cut"]}
{"id": "C55", "title": "cuts commute and combine", "statement": "The map left after cut(q1) and cut(q2) does not depend on their order, and when q1 and q2 together make up an interval q it is the map left by cut(q).", "quantifier": "all well-formed maps, all pairs of intervals, overlapping or not", "why_tests_cant": "All map contents and all pairs of intervals.", "anchors": ["src/nodit/map.rs: cut"]}
{"id": "C56", "title": "insert_overwrite: commutation and absorption", "statement": "insert_overwrite of two intervals without a common point gives the same map in either order; an insert_overwrite hides every earlier insert_overwrite of an interval inside it (in particular it is idempotent).", "quantifier": "all well-formed maps, all intervals and values", "why_tests_cant": "All map contents, pairs of intervals and values.", "anchors": ["src/nodit/map.rs: insert_overwrite"]}
{"id": "C57", "title": "inserting and removing undo each other", "statement": "After a successful insert_strict(k, v), remove_overlapping(k) returns just (k, v) and restores the map, and so does cut(k); what remove_overlapping(q) returned can be re-inserted with insert_strict in any order, which restores the map.", "quantifier": "all well-formed maps, all intervals, all orders of re-insertion", "why_tests_cant": "All map contents and permutations.", "anchors": ["src/nodit/map.rs: insert_strict, remove_overlapping, cut"]}
{"id": "C58", "title": "rebuilding a map from its entries", "statement": "from_iter_strict over the entries of a map, in any order, succeeds and gives an equal map.", "quantifier": "all well-formed maps, all permutations of the entries", "why_tests_cant": "All map contents and permutations.", "anchors": ["src/nodit/map.rs: from_iter_strict, into_iter"]}
{"id": "C59", "title": "gaps can be filled", "statement": "The intervals returned by gaps_trimmed(q) or gaps_untrimmed(q) can all be inserted with insert_strict, in any order; then contains_interval(q) is true, there are no gaps in q and the old entries are unchanged.", "quantifier": "all well-formed maps, all q, all orders and values", "why_tests_cant": "All map contents, queries and permutations.", "anchors": ["src/nodit/map.rs: gaps_trimmed, gaps_untrimmed, contains_interval, insert_strict"]}
{"id": "C60", "title": "complement of a NoditSet", "statement": "The intervals of gaps_untrimmed(uu()) form a NoditSet containing exactly the points not in the original; its gaps are the maximal runs of points of the original, which for a set built by merging inserts are its intervals.", "quantifier": "all reachable sets", "why_tests_cant": "All set contents.", "anchors": ["src/nodit/set.rs: gaps_untrimmed, from_iter_strict, contains_point"]}
{"id": "C61", "title": "Only the points of a query interval matter", "statement": "overlaps, overlapping, overlapping_mut, remove_overlapping, cut, gaps_untrimmed, gaps_trimmed and contains_interval give the same result and effect for any two query intervals, of any interval types, with the same points.", "quantifier": "all well-formed maps, all pairs of query intervals of any types with the same points", "why_tests_cant": "All query types and contents.", "anchors": ["src/nodit/map.rs: overlaps, overlapping, overlapping_mut, remove_overlapping, cut, gaps_untrimmed, gaps_trimmed, contains_interval"]}
{"id": "C62", "title": "ZosditMap is a sequence of entries (exact reference machine)", "statement": "For every history of insert_strict_back, remove_last_value_at_point and cut calls, some run of a small reference machine (a sequence of entries, a count of removed values, and whether a cut happened) gives the same result for every call, iter() yields its entries, and len() is the number of entries plus the number of removed values. The machine states what the code does, including where it departs from the documentation.", "quantifier": "all histories of calls, with valid or invalid arguments, all shapes of the inner tree", "why_tests_cant": "Infinitely many histories; the outcome depends on accumulated state.", "anchors": ["src/zosdit/map.rs: insert_strict_back, remove_last_value_at_point, cut, iter, len, is_empty"]}
{"id": "C63", "title": "get_last_value_at_point, exactly", "statement": "get_last_value_at_point(p) is None iff no entry contains p, or all entries containing p end at p while some entry has points above p; otherwise it is the value of the last entry (in iteration order) that contains p. In particular a point that is not the last point of an entry that contains it is always found.", "quantifier": "all histories, all points", "why_tests_cant": "Boundary cases depend on the layout of the whole map.", "anchors": ["src/zosdit/map.rs: get_last_value_at_point"]}
{"id": "C64", "title": "ZosditMap len, exactly", "statement": "len() is the number of entries iter() yields plus the number of earlier remove_last_value_at_point calls that returned a value; is_empty() is true iff the map has no entries and no such call has happened.", "quantifier": "all histories", "why_tests_cant": "Only long histories of mixed calls show the drift.", "anchors": ["src/zosdit/map.rs: len, is_empty, remove_last_value_at_point, cut"]}
{"id": "C65", "title": "ZosditMap cut, exactly", "statement": "cut(q) does nothing exactly if some entry has points before q but no such entry overlaps q; otherwise it replaces every overlapping entry by what is left of it and returns the parts inside q, in order. In both cases no point loses a value: what was stored is either still stored or returned.", "quantifier": "all histories, all valid q", "why_tests_cant": "Depends on the entries to the left of q, in all layouts.", "anchors": ["src/zosdit/map.rs: cut"]}
{"id": "C66", "title": "insert_strict_back adds at the back", "statement": "In a map that has not been cut, insert_strict_back of an interval that zero-overlaps the map adds exactly one entry, after all the entries that lie at or before it, including all entries with an identical interval; len() grows by one; all entries with an identical interval have the key that was given first.", "quantifier": "all histories without cut, all zero-overlapping intervals and values", "why_tests_cant": "All layouts with shared endpoints and singular intervals.", "anchors": ["src/zosdit/map.rs: insert_strict_back"]}
{"id": "C67", "title": "remove_last_value_at_point undoes insert_strict_back", "statement": "After a successful insert_strict_back(k, v), for a point p of k that is not its last point, get_last_value_at_point(p) is v, and remove_last_value_at_point(p) returns v and restores the previous sequence of entries; the same holds for a point interval at the end of a map that has not been cut.", "quantifier": "all histories, all intervals, values and points", "why_tests_cant": "A law over all histories and all points.", "anchors": ["src/zosdit/map.rs: insert_strict_back, remove_last_value_at_point, get_last_value_at_point"]}
{"id": "C68", "title": "The order of inserts matters only between identical intervals", "statement": "Building a ZosditMap from two lists of valid pairwise zero-overlapping items that agree on the order of the items with identical intervals gives maps that iterate over the same entries.", "quantifier": "all pairs of lists, all tree shapes", "why_tests_cant": "All permutations of all lists.", "anchors": ["src/zosdit/map.rs: from_iter_strict_back, FromIterator, insert_strict_back"]}
{"id": "C69", "title": "Maps keep disjoint entries for interval types whatever their From<Interval> does, while only given keys are stored", "statement": "For every interval type, including ones whose From<Interval> does not keep the interval, any sequence of the calls insert_strict, remove_overlapping, overlapping, overlapping_mut, overlaps, get_at_point, get_at_point_mut, get_key_value_at_point, contains_point, iter, iter_mut, len, is_empty, first_key_value and last_key_value keeps the entries valid, disjoint and ordered, and each call has the documented effect and result.", "quantifier": "all interval types, all call sequences of this fragment, all arguments", "why_tests_cant": "Ranges over all user interval types and all histories.", "anchors": ["src/interval.rs: InclusiveInterval, IntervalType", "src/nodit/map.rs: insert_strict, remove_overlapping, overlapping, overlapping_mut, get_at_point"]}
{"id": "C70", "title": "The README's Reservation type breaks the interval contract, with visible consequences", "statement": "The README's example From<Interval<i8>> for Reservation adds the point after the interval's end. So with it, cut(q) leaves the first point of q reserved whenever a reservation straddles the start of q, and contains_interval answers false on touching reservations that together cover q, with a gap reported that is wholly covered. Writing the end itself instead makes the type lawful, so that every other property applies.", "quantifier": "all well-formed maps of reservations, all query intervals", "why_tests_cant": "All maps and queries; the README's own example does not exercise the boundary.", "anchors": ["README.md: Reservation, From<Interval<i8>>", "src/nodit/map.rs: cut, contains_interval, gaps_untrimmed"]}
{"id": "C71", "title": "Gqdit contents in programs with several Gqdits, deserialised or drained", "statement": "For every program that creates Gqdits by new(), by deserialising disjoint valid entries, by insert, by cuts and by append (keeping also the drained operand), identifiers_at_point gives at each point the identifiers inserted there and not cut since, where a point outside of all deserialised intervals (or any point of a drained operand) never holds any identifier; serialising yields exactly the points with contents. Programs with the same contents answer alike.", "quantifier": "all programs (trees of calls), all points", "why_tests_cant": "All programs, including ones mixing deserialised, drained and fresh values.", "anchors": ["src/gqdit/mod.rs: append, insert, cut_with_identifiers, cut_all_identifiers, identifiers_at_point, Deserialize"]}
{"id": "C72", "title": "Gap queries and panics of Gqdits with holes", "statement": "For every Gqdit that such a program makes (also deserialised ones that do not cover all points, and drained ones): each call panics exactly if its interval argument contains no point; gaps_no_identifier(q) lists exactly the serialised intervals with no identifiers that meet q; gaps_with_identifier(d, q) lists ascending disjoint non-touching intervals, no point of which holds an identifier other than d, and which contain every point of q that is in a stored interval and holds no identifier other than d. Exactly: the intervals listed are the maximal runs of the free points of q (stored, no identifier but d) together with the points between two free points at or below the start of q if no taken point (stored, with an identifier other than d) lies from the lower one to the start of q, and the same above q; so with holes it may return intervals that do not meet q or that span a hole.", "quantifier": "all programs, all identifiers, all query intervals of all interval types", "why_tests_cant": "All programs and queries; the internal unreachable!/unwrap sites are only excluded by an invariant.", "anchors": ["src/gqdit/mod.rs: gaps_no_identifier, gaps_with_identifier, expand_gaps_at_point_left, expand_gaps_at_point_right, merge_ordered, touches_ordered"]}
{"id": "C73", "title": "Algebraic laws of Gqdit", "statement": "In its effect on the receiver append is commutative, associative, idempotent and has new() as unit; cuts distribute over append and inserts commute with it; cutting the identifiers just inserted undoes the insert if none of them was there before; two inserts or cuts at the same interval combine to one with the union of the identifiers; an insert and a cut at intervals without a common point commute. In all cases the two resulting Gqdits are equal, including how the intervals are split.", "quantifier": "all histories, identifier sets and intervals", "why_tests_cant": "Equational laws over all histories.", "anchors": ["src/gqdit/mod.rs: append, insert, cut_with_identifiers, cut_all_identifiers, PartialEq"]}
{"id": "C74", "title": "The exact outcome of deserialisation on every input", "statement": "For every sequence of next_element() results, deserialising a NoditMap, NoditSet, Gqdit or ZosditMap has exactly this outcome: if all elements are readable, have valid intervals and none clashes with an earlier one (overlap; for ZosditMap: not zero-overlapping), a container with exactly these elements; otherwise the first element that is not decides: the format's error, the custom error, or the invalid-interval panic. The outcome of deserialising a ZosditMap does not depend on the shape of the tree; entries with an identical interval come in the given order under the key given first. For maps the order of the elements is irrelevant: any permutation of a serialised map reads back as the same map.", "quantifier": "all inputs of any length, with read errors at any position", "why_tests_cant": "All inputs including malformed ones, and all permutations.", "anchors": ["src/nodit/map.rs: Deserialize, visit_seq", "src/nodit/set.rs: visit_seq", "src/gqdit/mod.rs: Deserialize", "src/zosdit/map.rs: visit_seq"]}
{"id": "C75", "title": "Interval operations satisfy the laws of sets", "statement": "intersection is commutative, associative, idempotent and gives the greatest interval contained in both; contains_interval is a partial order, agrees with contains_point on single points and with intersection; overlaps agrees with intersection on valid intervals, and panics exactly when one (invalid) argument ends inside the other but starts above it.", "quantifier": "all intervals of all interval types over all lawful point types", "why_tests_cant": "All values of unboundedly many point types; three-way combinations.", "anchors": ["src/interval.rs: intersection, overlaps, contains_interval, contains_point", "src/utils.rs: config, sorted_config"]}
{"id": "C76", "title": "Laws of translate and width", "statement": "With overflow checks: translating by d and then d' is translating by d+d' (if nothing overflows), translation keeps width, validity, overlap and containment, and a valid interval has width+1 points. Without overflow checks: translate never panics, two translations always compose by the wrapped sum, a translation is undone by the wrapped negation, and width is exact or (iff the distance exceeds the type's maximum) negative.", "quantifier": "all intervals and deltas of all primitive integer types", "why_tests_cant": "All values of all integer widths, both build modes.", "anchors": ["src/interval.rs: translate, width"]}
{"id": "C77", "title": "An Interval used as RangeBounds means the same points", "statement": "start()/end() and the bounds are the end-points; RangeBounds::contains agrees with contains_point; a standard BTreeMap's range(interval) panics iff the interval is invalid and otherwise yields exactly the entries whose key is in the interval.", "quantifier": "all intervals, points and standard maps of any size", "why_tests_cant": "All maps and intervals.", "anchors": ["src/interval.rs: Interval::start, Interval::end, RangeBounds for Interval, start_bound, end_bound"]}
{"id": "C78", "title": "A panic in user code never corrupts a NoditMap", "statement": "If user-supplied code (comparison, key construction, clone, equality or drop of values) panics at any moment inside any NoditMap call and the panic is caught, the map left behind has valid, ascending, disjoint entries, equals a map built without any panic, holds no value at a point where it was not before, and has lost at most entries overlapping or touching the argument (for each call exactly which ones is specified; for cut at most one entry loses outer parts). This holds throughout any history with panics anywhere. The same holds for every history of NoditSet calls.", "quantifier": "all histories of calls, all arguments, all moments at which user code panics", "why_tests_cant": "Every call has many panic points and states; their combinations over histories are unbounded.", "anchors": ["src/nodit/map.rs: cut, remove_overlapping, insert_merge_with_comps, insert_overwrite, insert_strict, insert_merge_touching, insert_merge_touching_if_values_equal, insert_merge_overlapping, insert_merge_touching_or_overlapping", "src/nodit/set.rs: NoditSet"]}
{"id": "C79", "title": "A panic in user code inside a Gqdit call damages only what the call was about", "statement": "If user-supplied code panics at any moment inside insert, cut_with_identifiers or cut_all_identifiers of a Gqdit and the panic is caught, then at every point the Gqdit holds the identifiers from before the call, or those the finished call would have left, or the point has become a hole (no identifiers, and later inserts there are lost); stored intervals neither overlapping nor touching the argument are unchanged. Over any history with panics anywhere, an identifier is only ever at a point where it was before or where an insert put it, and a hole stays a hole. An interrupted append likewise leaves each point of self old, merged or a hole, and each point of other old or a hole.", "quantifier": "all programs building the Gqdits, all calls and arguments, all moments at which user code panics, all histories", "why_tests_cant": "Every call has as many panic points as it touches entries; states and histories are unbounded.", "anchors": ["src/gqdit/mod.rs: Gqdit::insert, Gqdit::cut_with_identifiers, Gqdit::cut_all_identifiers, Gqdit::append"]}
{"id": "C80", "title": "A panic in user code inside a ZosditMap call", "statement": "If user-supplied code panics at any moment inside insert_strict_back or remove_last_value_at_point and the panic is caught, the map is exactly as before. Inside cut(q): entries not overlapping q are kept, no value is at a point where it was not before, at most the entries of one store lose points outside q, the rest is cut or not cut. Over any history with panics anywhere the entries stay valid, ordered and at most zero-overlapping, later calls behave as the exact specification says, and len() equals the number of entries plus the entries counted though gone (an interrupted cut can count one store once or twice too often), never less.", "quantifier": "all histories of calls, all arguments, all moments at which user code panics", "why_tests_cant": "Panic points times states times histories are unbounded.", "anchors": ["src/zosdit/map.rs: ZosditMap::cut, insert_strict_back, remove_last_value_at_point, len"]}
{"id": "C81", "title": "How large the structures can get", "statement": "A NoditMap/NoditSet insert adds at most one entry, insert_overwrite at most two, cut at most one (it can split an entry), every other call none; so len() after any history is at most the sum of these, and at most the number of points of a finite point type. The gaps reported for a query (trimmed or not) are at most one more than the entries overlapping it. A Gqdit stores at most 2n+1 intervals after n changing calls, however many identifiers are involved. A ZosditMap iterates over at most as many entries as there were inserts and cuts.", "quantifier": "all histories of calls, all arguments, all point types", "why_tests_cant": "Bounds on growth range over all call histories.", "anchors": ["src/nodit/map.rs: NoditMap::len, cut, insert_overwrite, gaps_untrimmed, gaps_trimmed", "src/nodit/set.rs: NoditSet", "src/gqdit/mod.rs: Gqdit::insert, cut_with_identifiers, cut_all_identifiers, append", "src/zosdit/map.rs: ZosditMap::insert_strict_back, cut"]}
{"id": "C82", "title": "Interval arithmetic behind overlaps and cut", "statement": "For every two valid intervals: cut_interval returns, without panicking, the points of the base below, inside and above the cut as intervals, each absent exactly if empty (also for disjoint intervals and at the ends of the point type); config classifies the pair as its variant's name says; sorted_config reports NonOverlapping exactly for intervals that share no point, lower one first, and passes on both intervals unchanged. (The Swallowed/PartialOverlap label of sorted_config is unreliable; nothing reads it.)", "quantifier": "all pairs of valid intervals of any two interval types over any point type", "why_tests_cant": "Unboundedly many interval pairs and point types.", "anchors": ["src/utils.rs: cut_interval, config, sorted_config"]}
{"id": "C83", "title": "Double-ended iteration in any interleaving", "statement": "For every map or set, iter(), overlapping(q), ZosditMap::iter() and the mutable iterators behave, under every interleaving of next() and next_back() calls, like taking elements from the two ends of the ascending list of their entries: no entry is skipped or returned twice, calls after exhaustion return None, nothing panics; and with iter_mut/overlapping_mut exactly the values of the entries yielded so far are changed by what the caller does to them, all intervals and all other values staying as they are.", "quantifier": "all maps, all valid query intervals, all finite sequences of next()/next_back() calls with arbitrary value updates", "why_tests_cant": "Unboundedly many interleavings and contents; meeting in the middle of a value list (flat_map) depends on both.", "anchors": ["src/nodit/map.rs: iter, iter_mut, overlapping, overlapping_mut, IntoIter", "src/nodit/set.rs: iter, overlapping, IntoIter", "src/zosdit/map.rs: iter, overlapping, into_iter"]}
{"id": "C84", "title": "Lazy adapters deliver what the eager description says", "statement": "The lazy iterators of gaps_untrimmed and gaps_trimmed can be called any number of times and stopped anywhere: they never panic, yield exactly the ascending gaps and then None forever. overlaps and contains_interval, which take one item only, and Gqdit's gaps_no_identifier/gaps_with_identifier, which run through rev, take_while, filter_map, filter, chain and coalesce, return exactly the results of C05, C16, C31 and C32. cut and remove_overlapping have changed the map when they return; their iterators yield the pieces and removed entries one by one, and then None.", "quantifier": "all well-formed maps and reachable Gqdits, all query intervals, all numbers of calls", "why_tests_cant": "Laziness interacts with panicking closures and with the state kept between calls; infinitely many inputs and stopping points.", "anchors": ["src/nodit/map.rs: gaps_untrimmed, gaps_trimmed, overlaps, contains_interval", "src/gqdit/mod.rs: gaps_no_identifier, gaps_with_identifier, expand_gaps_at_point_left, expand_gaps_at_point_right"]}
{"id": "C85", "title": "A Gqdit is a family of NoditSets", "statement": "For every identifier d and every history of Gqdit calls: replaying on a NoditSet only what the history does to d (inserting, cutting, appending) gives a set that contains exactly the points at which identifiers_at_point reports d. gaps_with_identifier(d, q) equals gaps_untrimmed(q) of any NoditSet holding exactly the points that have an identifier other than d, and gaps_no_identifier(q) that of any NoditSet holding exactly the points that have an identifier.", "quantifier": "all Gqdit histories, all identifiers, all points and valid query intervals", "why_tests_cant": "Equivalence of two containers over all histories and all identifiers.", "anchors": ["src/gqdit/mod.rs: insert, cut_with_identifiers, cut_all_identifiers, append, identifiers_at_point, gaps_no_identifier, gaps_with_identifier", "src/nodit/set.rs: insert_merge_touching_or_overlapping, cut, contains_point, gaps_untrimmed"]}
{"id": "C86", "title": "ZosditMap without shared points behaves as a NoditMap", "statement": "For every history after which a ZosditMap holds pairwise disjoint entries, and the NoditMap with the same entries: overlapping, first_key_value and last_key_value agree; get_last_value_at_point agrees with get_at_point except at the end of an entry with entries above (None there); an insert_strict that succeeds on the NoditMap succeeds as insert_strict_back on the ZosditMap and leaves equal entries; cut returns and leaves the same, unless some entry lies wholly before the cut and none straddles its start; from_iter_strict that succeeds gives from_iter_strict_back with the same entries and len.", "quantifier": "all histories, all disjoint contents, all keys, values, points and query intervals", "why_tests_cant": "Equivalence of two data structures over all contents and calls.", "anchors": ["src/zosdit/map.rs: insert_strict_back, cut, overlapping, get_last_value_at_point, from_iter_strict_back", "src/nodit/map.rs: insert_strict, cut, overlapping, get_at_point, from_iter_strict"]}
{"id": "C87", "title": "A custom interval type behaves exactly as Interval", "statement": "For every key type K whose From<Interval> keeps start and end of every valid interval: a history of calls on NoditMap, NoditSet, ZosditMap or Gqdit with keys of type K and the same history with the plain intervals start..=end return the same results call by call (panics included), once every returned K is read as start..=end, and all queries afterwards agree. Nothing else about K can influence any container. Only gaps_untrimmed, gaps_trimmed and contains_interval ask for more: From must turn an invalid interval into an invalid one, because they convert the empty space between touching entries before testing it; a type whose From normalises the ends makes them report gaps that are not there.", "quantifier": "all interval types with a From<Interval> that is faithful on valid intervals, all histories (also with invalid intervals), all queries", "why_tests_cant": "Quantifies over all user types and all histories; relates two unbounded runs.", "anchors": ["src/nodit/map.rs", "src/nodit/set.rs", "src/zosdit/map.rs", "src/gqdit/mod.rs", "src/interval.rs: InclusiveInterval, IntervalType"]}
{"id": "C88", "title": "Values and identifiers are opaque", "statement": "Replacing the values in a history of NoditMap or ZosditMap calls by any function of them (even a non-injective one) replaces the values in all results accordingly and changes nothing else: no interval, order, length, error or panic depends on a value, except through == in insert_merge_touching_if_values_equal. Renaming the identifiers of a Gqdit history one-to-one renames them in the results and changes nothing else.", "quantifier": "all histories, all functions on values, all injective renamings of identifiers", "why_tests_cant": "Parametricity: ranges over all value types, all functions and all histories.", "anchors": ["src/nodit/map.rs", "src/zosdit/map.rs", "src/gqdit/mod.rs"]}
{"id": "C89", "title": "Equality of containers", "statement": "If == of the keys and of the values is an equivalence and equal keys have the same ends: == of NoditMap, NoditSet, ZosditMap and Gqdit is an equivalence (entry-wise equality in order), and it is a congruence: the same calls with equal arguments on equal containers panic alike, return equal results and leave equal containers, for every history; so nothing can tell equal containers apart. (That equal keys have the same ends is needed: with an == of keys that ignores them, two equal sets answer contains_point differently.) Conversely two NoditMaps with lawful == are equal iff every point lookup agrees. Two ZosditMaps reached without cut are equal iff they have the same entries in order and the same len(); a map that has been emptied by remove_last_value_at_point is therefore not equal to a new one, although both have no entries.", "quantifier": "all key and value types with such an ==, all pairs of equal containers, all histories of calls with equal arguments (closures that respect ==), all queries", "why_tests_cant": "Relates pairs of unbounded histories and ranges over all user-defined equalities.", "anchors": ["src/nodit/map.rs: derive(PartialEq) on NoditMap", "src/nodit/set.rs: derive(PartialEq) on NoditSet", "src/zosdit/map.rs: derive(PartialEq) on ZosditMap", "src/gqdit/mod.rs: PartialEq for Gqdit"]}
{"id": "C90", "title": "Serde of Interval", "statement": "Deserialising an Interval succeeds exactly if start and end are each given once (in a format with field names; other fields and the order do not matter) or the first two elements can be read (in a format without), and it has exactly these ends; so every serialised Interval comes back. The ends are not checked: an Interval whose end is before its start is accepted, and every map call with it panics. Otherwise the error is that of the first item that is wrong (an unreadable name or value, or a field given again, reported under its name); if none is, the missing field is reported, start before end; sequences report how many elements there were, if less than two.", "quantifier": "all inputs of the deserialiser (all sequences of fields or elements, with errors), all point types", "why_tests_cant": "Ranges over all inputs of the format.", "anchors": ["src/interval.rs: derive(Serialize, Deserialize) on Interval"]}
{"id": "C91", "title": "Whole programs do not depend on how the container arranges its tree", "statement": "Run a program of NoditMap or NoditSet calls, or build Gqdits by any history, over a search tree in which every lookup, bound and range is a descent with the crate's comparator and which is rearranged arbitrarily after every change: every call gives the same result (or panic) and the tree has the same entries as in the model over sorted sequences, so two containers that balance differently cannot be told apart. For ZosditMap the same holds without cut; with cut the results are those of the model for some choice among stores with the same interval, and two shapes can indeed give different orders.", "quantifier": "all histories of calls, all rearrangements of the tree after every single change (all balancing strategies and node capacities), all key and value types", "why_tests_cant": "Tests see the one shape the balancing algorithm produces for each history; the claim is about every shape at every step.", "anchors": ["src/nodit/map.rs: every use of self.inner", "src/gqdit/mod.rs: Gqdit", "src/zosdit/map.rs: every use of self.inner"]}
{"id": "C92", "title": "Calls leave alone what they are not about", "statement": "Over any history of NoditMap calls: an entry that no call may change, merge, shorten or remove (by the documented reach of each call: touching / touching with an equal value / overlapping) is still there afterwards with its key and value; a point that is not covered and lies in no inserted interval is not covered afterwards (no merge covers a gap); and without remove_overlapping a covered point in no cut interval stays covered (no insert uncovers a point).", "quantifier": "all maps, all histories of calls with all arguments, valid or not, all entries and points", "why_tests_cant": "A frame condition over all histories: tests look at the entries they expect to change, and cannot look at all others in all histories.", "anchors": ["src/nodit/map.rs: NoditMap (all methods)"]}
{"id": "C93", "title": "Clients on separate regions of a NoditMap do not observe each other", "statement": "Several clients share a NoditMap, each making calls with intervals or points within its own region; the regions neither overlap nor touch, and no entry overlaps or touches two of them. Then for every interleaving of the clients' calls every client gets exactly the results it would get if it were alone, and the final map is the same for all interleavings. (Two touching regions are not enough, unless no client uses an insert that joins touching entries; then it suffices that the regions share no point and no entry overlaps two of them.) The same holds for clients sharing a NoditSet.", "quantifier": "all maps, any number of clients, all regions, all sequences of calls of each client (inserts of all kinds, cut, remove_overlapping, overlapping, overlaps, overlapping_mut, gaps_trimmed, contains_interval, point lookups), all schedules", "why_tests_cant": "It ranges over all schedules of all programs.", "anchors": ["src/nodit/map.rs: NoditMap (all methods taking an interval or point)", "src/nodit/set.rs: NoditSet"]}
{"id": "C94", "title": "Clients on separate regions of a ZosditMap do not observe each other", "statement": "Several clients share a ZosditMap, each making calls within its own region. If the clients only insert, regions sharing at most end points are enough, otherwise the regions share no point and no entry meets two of them. Then for every interleaving every client gets the results it would get alone, and finds the same entries in its region at the end. Entries containing no point at which a value is removed and overlapping no interval cut stay, in order.", "quantifier": "all histories, any number of clients, all regions, all schedules", "why_tests_cant": "It ranges over all schedules of all programs.", "anchors": ["src/zosdit/map.rs: ZosditMap::insert_strict_back, remove_last_value_at_point, cut"]}
{"id": "C95", "title": "Points need not be discrete for calls that name no neighbouring point", "statement": "For any totally ordered point type, even if up, down, MIN and MAX are meaningless (fractions, coarse timestamps), insert_strict, insert_merge_overlapping, remove_overlapping, overlapping(_mut), overlaps, get_at_point_mut, iter, iter_mut, len, is_empty, first/last_key_value behave exactly as the reference machine. Lookups of covered points are right; lookups of uncovered points are right or panic, and panic only if up of an end below or down of a start above is None. NoditSet histories of these calls and ZosditMap histories without cut behave as specified too.", "quantifier": "all totally ordered point types with arbitrary up/down/MIN/MAX, all histories of these calls", "why_tests_cant": "It ranges over all point types and histories.", "anchors": ["src/utils.rs: DiscreteFinite callers", "src/nodit/map.rs: NoditMap::insert_strict, insert_merge_overlapping, remove_overlapping, get_key_value_at_point, get_gap_at_raw, cut", "src/zosdit/map.rs"]}
{"id": "C96", "title": "ZosditMap's length counter as a usize", "statement": "For a usize of any width: in builds with overflow checks no call panics on the length counter, not even in the middle of a cut, as long as inserts plus cuts ever made stay below usize::MAX (removals do not count), and everything is as with an unbounded counter. In wrapping builds no history whatever changes any result or stored entry; len() is (entries + values removed so far) mod 2^bits and is_empty() is whether that is 0. So after usize::MAX inserts, each followed by a removal, one more insert panics, or leaves a map with an entry for which is_empty() holds.", "quantifier": "all usize widths, all histories", "why_tests_cant": "The failing histories have 2^32 or 2^64 calls, and the safety claim ranges over all histories.", "anchors": ["src/zosdit/map.rs: ZosditMap::len, is_empty, insert_strict_back, cut, remove_last_value_at_point"]}
{"id": "C97", "title": "Clients of a Gqdit with separate territories do not observe each other", "statement": "Several clients share a Gqdit, each making calls only about its own pairs of points and identifiers (its own time slots, its own rooms, or both). Then under every interleaving each client finds each of its identifiers at exactly the points where it would be without the other clients; if it owns all identifiers in an interval, gaps_no_identifier and gaps_with_identifier give it the same points of that interval; and all interleavings leave equal Gqdits.", "quantifier": "all histories, any number of clients, all territories, all schedules", "why_tests_cant": "It ranges over all schedules of all programs.", "anchors": ["src/gqdit/mod.rs: Gqdit::insert, cut_with_identifiers, cut_all_identifiers, identifiers_at_point, gaps_no_identifier, gaps_with_identifier"]}
{"id": "C98", "title": "Who gets the clones", "statement": "cut and insert_overwrite of NoditMap and cut of ZosditMap give the caller the original values; only the parts of entries left in the map hold clones, exactly one clone() per value in a remaining part, in iteration order; an entry cut out or overwritten as a whole is not cloned, nor is any other entry of the map; a NoditMap call makes at most two clones, one for an entry reaching in from the left and one for an entry sticking out to the right. So for any clone(), also one with side effects, and any relation between values that clone() cannot leave (such as: same contents), every history gives results and maps that are, up to that relation, what they would be if clones were the values themselves: same intervals, same answers, same panics; with a clone() that returns an equal value they are equal.", "quantifier": "all clone functions (with side effects), all relations kept by them, all maps, all histories", "why_tests_cant": "It ranges over all clone functions, maps and histories.", "anchors": ["src/nodit/map.rs: NoditMap::cut, NoditMap::insert_overwrite", "src/zosdit/map.rs: ZosditMap::cut"]}
{"id": "C99", "title": "Programs with several containers", "statement": "A program may hold any number of NoditMaps (NoditSets, ZosditMaps, Gqdits) in variables, create, build (from_iter_strict, from_slice_strict, from_iter_strict_back, from_slice_strict_back, deserialize), clone, move (mem::take), swap and call them, append Gqdits to each other, with every panic caught, also one of user code (Clone, comparisons, Drop) at any moment of a call or of a clone(). At every moment every container is well-formed, and every statement does and returns what it would do on plain values: sets of entries, sets of intervals, entry sequences, maps from points to identifiers. Cloning runs user code exactly once per value (per identifier of an entry, for Gqdit): it panics exactly if one of these runs does. In particular a clone is independent of its original, a failed build or clone changes nothing, and building fails exactly at the first unusable element. In every program a clone of a NoditMap, the map read back from its serialised form and the map built anew from its entries in any order are identical.", "quantifier": "all programs with any number of variables and statements, all arguments, all sources, all moments of a panic", "why_tests_cant": "It ranges over all programs, inputs and interruption points.", "anchors": ["src/nodit/map.rs: NoditMap (Clone, from_iter_strict, from_slice_strict, deserialize)", "src/nodit/set.rs: NoditSet (Clone, from_iter_strict, from_slice_strict, deserialize)", "src/zosdit/map.rs: ZosditMap (Clone, from_iter_strict_back, from_slice_strict_back, deserialize)", "src/gqdit/mod.rs: Gqdit (Clone, append, deserialize)"]}
{"id": "C100", "title": "Union, difference, intersection, overlay and restriction by loops over the API", "statement": "A client that inserts the intervals of a set b into a set a with insert_merge_touching_or_overlapping gets the union of their points; one that cuts the intervals of b out of a gets the difference, and the pieces the cuts return, in order, are disjoint and cover exactly the common points (from_iter_strict accepts them); one that cuts the gaps of b (gaps_untrimmed of uu()) out of a gets the intersection. No call in these loops panics, and the result does not depend on the order of the intervals. For sets built with merging inserts the union is the same value whichever set is the base (a \u222a b == b \u222a a, a \u222a a == a). For maps, inserting the entries of n into m with insert_overwrite gives at every point the value of n if n has one there, else the value of m; cutting the gaps of a set b out of m leaves exactly the values at the points of b.", "quantifier": "all sets and maps that histories of calls can produce (all with ascending disjoint valid intervals), all lists of valid intervals, in any order, all points", "why_tests_cant": "It is a statement about every pair of containers of any size and every order of the loop; a test compares a few.", "anchors": ["src/nodit/set.rs: NoditSet::insert_merge_touching_or_overlapping, NoditSet::cut, NoditSet::gaps_untrimmed, NoditSet::from_iter_strict", "src/nodit/map.rs: NoditMap::insert_overwrite, NoditMap::cut", "src/interval.rs: uu"]}
{"id": "C101", "title": "Bookings made through the reported gaps never collide", "statement": "Clients use a Gqdit only like this: ask gaps_no_identifier(q), insert an own identifier into any interval inside one of the listed gaps, give a booking back with cut_with_identifiers. Then no two bookings held at the same time share a point; identifiers_at_point names exactly the owner of the booking there (or nobody); an interval free of bookings is inside a gap listed for every query touching it and can be booked; a booking given back can be booked again at once; nothing panics. If instead every client d places things only inside intervals listed by gaps_with_identifier(d, q) and removes whatever it likes, no point ever holds two identifiers, and each point of q held by nobody else is offered to d.", "quantifier": "all executions of the two protocols (any number of clients, bookings, queries, cancellations, in any order), all point, interval and identifier types", "why_tests_cant": "Histories of any length with any interleaving of clients and any choice of sub-intervals; a test runs a few.", "anchors": ["src/gqdit/mod.rs: Gqdit::gaps_no_identifier, Gqdit::gaps_with_identifier, Gqdit::insert, Gqdit::cut_with_identifiers, Gqdit::identifiers_at_point"]}
{"id": "C102", "title": "Equality and hash of Interval", "statement": "Two intervals, the first containing a point, are == iff they contain the same points, however they were written (ee(3, 5) == ii(4, 4)); the inclusive and exclusive constructors with neighbouring arguments give the same interval or panic alike, and uu() is ii(MIN, MAX), ui(MAX), iu(MIN). == is an equivalence. Equal intervals hash equally if equal points do.", "quantifier": "all intervals over all lawful point types, all hashers", "why_tests_cant": "All values of unboundedly many point types and hashers.", "anchors": ["src/interval.rs: derive(PartialEq, Eq, Hash) on Interval, ee, ie, ei, ii, ue, eu, ui, iu, uu"]}
{"id": "C103", "title": "Emptying a point of a ZosditMap, and cutting twice", "statement": "The loop 'while let Some(v) = map.remove_last_value_at_point(p)' terminates after any history without panic: it takes out a consecutive run of entries containing p, their values come out last first, all other entries stay, and get_last_value_at_point(p) is None afterwards. It takes every entry containing p if none of them ends at p or if no other entry goes beyond p. After a cut(q) that returned something no entry overlaps q, and a second cut of q, or of any interval inside q, returns nothing and changes no entry.", "quantifier": "all histories of insert_strict_back, remove_last_value_at_point and cut, all points and intervals", "why_tests_cant": "Termination and outcome of an unbounded loop from every reachable state.", "anchors": ["src/zosdit/map.rs: ZosditMap::remove_last_value_at_point, ZosditMap::get_last_value_at_point, ZosditMap::cut, ZosditMap::overlapping"]}
{"id": "C104", "title": "Widening the point type changes nothing", "statement": "A program that outgrows its point type (u8 becomes u16, i8 becomes i64, or T becomes the README's WithInfinity<T>) behaves as before: with the same calls, read over the wider type, a NoditMap, NoditSet or ZosditMap has the same entries in the same order and every call returns or panics the same; a Gqdit history panics in the same cases and has the same identifiers at all old points and none at new ones. Only whole gaps (gaps_untrimmed, the Err of get_key_value_at_point, gaps_no_identifier, gaps_with_identifier) differ, and only where they reached MIN or MAX of the old type: there they reach MIN or MAX of the wider one. Counting from another origin (adding a constant to all points, in a type that has room for it) is a special case.", "quantifier": "all histories of calls, all pairs of lawful point types with an order embedding whose image has no holes, all key types over them, all values", "why_tests_cant": "Relates whole histories over two point types, for unboundedly many pairs of types; a bug may depend on being near MIN or MAX.", "anchors": ["src/discrete_finite.rs: DiscreteFinite", "src/nodit/map.rs: NoditMap", "src/nodit/set.rs: NoditSet", "src/zosdit/map.rs: ZosditMap", "src/gqdit/mod.rs: Gqdit", "README.md: WithInfinity"]}
{"id": "C105", "title": "Left and right are symmetric", "statement": "Read all points in the opposite order (for u8: 255 - x; MIN becomes MAX, start becomes end). Making the mirrored calls on a mirrored NoditMap or NoditSet gives the mirrored entries in the opposite order, and every call returns the mirror image of what it returned (lists reversed, first and last exchanged) or panics alike; mirrored Gqdit histories panic alike, hold the same identifiers at mirrored points, and list the mirrored gaps in the opposite order. (ZosditMap is not symmetric: values at one point stay in insertion order.)", "quantifier": "all histories of calls, all pairs of lawful point types with an order-reversing bijection, all key types over them, all values", "why_tests_cant": "A test mirrors a few histories; an off-by-one at one end only, or a merge handled on one side only, shows up only for particular arrangements of entries.", "anchors": ["src/nodit/map.rs: NoditMap", "src/nodit/set.rs: NoditSet", "src/gqdit/mod.rs: Gqdit", "src/utils.rs: cut_interval"]}
{"id": "C106", "title": "Nothing is lost and nothing is duplicated", "statement": "Over any history of calls on a NoditMap, for every point p and value v: the number of accepted inserts of v over p equals the number of entries with p and v handed back by cut, remove_overlapping and insert_overwrite, plus one if get_at_point(p) is v - provided no call changes values in place or merges different values or overlapping entries. Regardless of values the same holds per point without the overlapping merges (also for NoditSet), and for all histories never more is handed back and still there than was put in. With strict inserts and remove_overlapping only, the entries themselves are conserved. For a ZosditMap the same holds for histories of inserts and cuts per point and value, and for histories of inserts and removals the values are conserved.", "quantifier": "all histories including refused and panicking calls, all points, all values", "why_tests_cant": "the equation counts over the whole history, of any length; a piece dropped or returned twice in one rare configuration breaks it", "anchors": ["src/nodit/map.rs: insert_strict, insert_overwrite, cut, remove_overlapping, insert_merge_touching, insert_merge_touching_if_values_equal", "src/nodit/set.rs: NoditSet", "src/zosdit/map.rs: insert_strict_back, remove_last_value_at_point, cut"]}
{"id": "C107", "title": "Identifiers are compared only through Ord; sets are reported in ascending order", "statement": "Let the identifiers' Ord call two identifiers equal that can be told apart. Any program over several Gqdits (new, deserialised, insert, cut_with_identifiers, cut_all_identifiers, append) panics, reports identifiers, answers gap queries and compares with == exactly as the same program with the classes of equal identifiers as identifiers. Each point reports exactly one identifier per class held there, in ascending order, and each reported identifier is itself an element of a set that was inserted or deserialised. If equal identifiers are identical, identifiers_at_point is exactly the set of the other properties, ascending. Which of several equal identifiers is reported is not fixed: a call about other points may change it, and == does not see it.", "quantifier": "all programs, all identifier types with a transitive, consistent Ord, all points, query intervals and identifiers", "why_tests_cant": "the claim relates every program to another program over another identifier type, for any user-defined Ord", "anchors": ["src/gqdit/mod.rs: IdType, insert, cut_with_identifiers, cut_all_identifiers, append, identifiers_at_point, gaps_with_identifier, gaps_no_identifier, eq", "src/nodit/map.rs: insert_merge_touching_if_values_equal"]}
{"id": "C108", "title": "The queries of a NoditMap or NoditSet agree with each other", "statement": "For a valid query interval the following are equivalent: overlaps is false; overlapping is empty; remove_overlapping removes nothing; cut removes nothing; gaps_trimmed is exactly the query; gaps_untrimmed is one interval containing the query; no point of the query is contained; get_at_point finds nothing at any of its points. Equivalent, too: contains_interval is true; gaps_untrimmed is empty; gaps_trimmed is empty; every point of the query is contained. overlaps on an interval is false exactly if insert_strict, insert_merge_touching and insert_merge_touching_if_values_equal accept it and insert_overwrite hands nothing back, and true exactly if the former return the value in an error and leave the map unchanged. A query of one point answers as contains_point and get_key_value_at_point. overlapping lists exactly what remove_overlapping removes, in the same order, and cut hands back their intersections with the query one for one; gaps_trimmed are the intersections of gaps_untrimmed with the query one for one. The query over all points lists the whole map. A narrower query finds a contiguous part of what a wider one finds.", "quantifier": "all reachable maps and sets, all valid query intervals of any interval type, all points, keys and values", "why_tests_cant": "equivalences between pairs of calls over all maps and all queries", "anchors": ["src/nodit/map.rs: overlaps, overlapping, remove_overlapping, cut, gaps_untrimmed, gaps_trimmed, contains_interval, contains_point, get_at_point, get_key_value_at_point, insert_strict, insert_merge_touching, insert_merge_touching_if_values_equal, insert_overwrite", "src/nodit/set.rs: the same methods"]}
{"id": "C109", "title": "Numbers of points add up", "statement": "For a finite point type: the points in the pieces cut hands back and the points in gaps_trimmed add up to the points of the query; all stored points and all gaps add up to the points of the type. insert_merge_overlapping and insert_merge_touching_or_overlapping add exactly as many points as gaps_trimmed reports for their interval. Over every history without those two inserts, the points put in by accepted inserts are the points handed back by cut, remove_overlapping and insert_overwrite plus the points stored at the end; over every history the latter never exceed the former. Over every history of inserts and cuts of a ZosditMap the same equation holds, each value counted. For a Gqdit the points of gaps_no_identifier over the whole domain and the points with some identifier add up to all points. On the integer types an interval has end - start + 1 points.", "quantifier": "all reachable maps, all histories, all valid query intervals, all finite point types", "why_tests_cant": "a conservation law over all histories and point types", "anchors": ["src/nodit/map.rs: cut, gaps_trimmed, gaps_untrimmed, insert_merge_overlapping, insert_merge_touching_or_overlapping, remove_overlapping, insert_overwrite", "src/zosdit/map.rs: insert_strict_back, cut", "src/gqdit/mod.rs: gaps_no_identifier, identifiers_at_point"]}
{"id": "C110", "title": "The queries of a ZosditMap agree with each other", "statement": "After any history: is_zero_overlap(q) is true exactly if every entry overlapping(q) lists has zero overlap with q, in particular if none is listed; it is true exactly if insert_strict_back(q, v) succeeds and false exactly if that hands v back and changes nothing. What get_last_value_at_point(p) finds is the value of the last entry overlapping(p..=p) lists, remove_last_value_at_point(p) hands out the same; nothing is found if nothing is listed, and something is found if a listed entry goes on above p or no entry of the map does. cut(q) either hands back nothing and changes nothing, or hands back one piece per entry overlapping(q) lists, in the same order, with its value and its points inside q, after which overlapping(q) is empty. What a query lists is a contiguous part of what a wider query lists and of iter(); is_zero_overlap passes to narrower queries. The query over all points lists iter(), whose ends are first_key_value and last_key_value; if is_empty() then it lists nothing.", "quantifier": "all histories, all points, all valid intervals of any interval type, all interval and value types", "why_tests_cant": "Agreement of independent search paths (exclusive, inclusive and insertion comparators) on every reachable map.", "anchors": ["src/zosdit/map.rs: is_zero_overlap, insert_strict_back, get_last_value_at_point, remove_last_value_at_point, cut, overlapping, first_key_value, last_key_value, is_empty"]}
{"id": "C111", "title": "The queries of a Gqdit agree with each other", "statement": "After any history: every point of q has no identifier exactly if gaps_no_identifier(q) is one interval containing q, and exactly if cut_all_identifiers(q) changes nothing; gaps_no_identifier(q) is empty exactly if every point of q has an identifier. Every point of q has no identifier but d exactly if gaps_with_identifier(d, q) is one interval containing q; it is empty exactly if every point of q has another identifier. cut_with_identifiers(ids, q) changes nothing exactly if none of ids is at any point of q; insert(ids, k) changes nothing exactly if all of ids are at all points of k. A query of one point gives one interval, containing it, or nothing, as identifiers_at_point says. Every interval gaps_no_identifier(q) lists is inside one that gaps_with_identifier(d, q) lists, and the lists are equal if d is stored nowhere. A narrower query lists exactly the intervals of the wider one that it meets, in the same order.", "quantifier": "all histories, all identifiers, all points, all valid intervals of any interval type", "why_tests_cant": "Agreement of different algorithms (lookup, filtered range, expansion and coalescing) on every reachable Gqdit.", "anchors": ["src/gqdit/mod.rs: gaps_no_identifier, gaps_with_identifier, cut_with_identifiers, cut_all_identifiers, insert, identifiers_at_point"]}
{"id": "C112", "title": "A query in two parts", "statement": "Let q1 and q2, which may share points, together have exactly the points of q. On a NoditMap overlaps(q) is overlaps(q1) || overlaps(q2), contains_interval(q) is contains_interval(q1) && contains_interval(q2), gaps_untrimmed(q) has the intervals of gaps_untrimmed(q1) and of gaps_untrimmed(q2), gaps_trimmed(q) has their points; if q1 does not begin after q2, remove_overlapping(q) hands out what remove_overlapping(q1) and then remove_overlapping(q2) hand out, in that order, and leaves the same map, and overlapping lists accordingly; cut(q) hands back, point by point, what cut(q1) and then cut(q2) hand back. Changing values through overlapping_mut(q) is changing them at q1 and then at q2, unless an entry reaches into both and changing twice differs from changing once. The same holds for a NoditSet. On a ZosditMap overlapping(q) lists what overlapping(q1) or overlapping(q2) list, each of which is a contiguous part of it, and if is_zero_overlap(q) then is_zero_overlap of both parts. On a Gqdit the gaps for q are those for q1 and q2, and inserting or cutting q is inserting or cutting q1 and then q2.", "quantifier": "all well-formed NoditMaps, all histories of ZosditMaps and Gqdits, all intervals with two such parts, of any interval types", "why_tests_cant": "All contents and all ways to divide an interval.", "anchors": ["src/nodit/map.rs: overlaps, contains_interval, gaps_untrimmed, gaps_trimmed, remove_overlapping, overlapping, cut", "src/zosdit/map.rs: overlapping, is_zero_overlap", "src/gqdit/mod.rs: gaps_no_identifier, gaps_with_identifier, insert, cut_with_identifiers, cut_all_identifiers"]}
{"id": "C113", "title": "Repeating a call", "statement": "Making the same NoditMap or NoditSet call a second time does not change the container, and its result is known: insert_strict, insert_merge_touching and insert_merge_touching_if_values_equal hand the value back, insert_merge_overlapping and insert_merge_touching_or_overlapping return the same interval, insert_overwrite hands back the entry just inserted, cut and remove_overlapping return nothing, queries answer the same (changes made through &mut access must be idempotent themselves). So a program that makes each call any number of times in a row ends with the same map as one that makes each once. Repeating insert, cut_with_identifiers, cut_all_identifiers or append on a Gqdit changes nothing. On a ZosditMap a repeated insert_strict_back is refused, unless the interval is a single point and was accepted: then the value is there twice; a repeated cut returns nothing and changes neither entries nor len.", "quantifier": "all well-formed containers, all calls with all arguments, all histories and all numbers of repetitions", "why_tests_cant": "retrying clients can repeat any call in any state; tests try a few calls on a few maps", "anchors": ["src/nodit/map.rs: insert_strict, insert_merge_touching, insert_merge_touching_if_values_equal, insert_merge_overlapping, insert_merge_touching_or_overlapping, insert_overwrite, cut, remove_overlapping, overlapping_mut, get_at_point_mut, iter_mut", "src/nodit/set.rs: NoditSet", "src/gqdit/mod.rs: insert, cut_with_identifiers, cut_all_identifiers, append", "src/zosdit/map.rs: insert_strict_back, cut"]}
{"id": "C114", "title": "First come, first served", "statement": "In any sequence of insert_strict calls on a NoditMap a call with a valid interval is accepted exactly if its interval shares no point with an entry that was there before the sequence or with an interval accepted earlier in it; otherwise it hands its own value back (a call with an invalid interval panics); afterwards the map holds exactly what it had and what was accepted. A client that instead inserts into the gaps_trimmed of each interval in turn is never refused and never panics, leaves every existing entry alone, and gives every free point the value of the first interval in the sequence that contains it; each interval is then fully covered. In any sequence of insert_strict_back calls on a ZosditMap a valid interval is accepted exactly if it zero-overlaps all entries there before and all accepted earlier, and the number of entries grows by the number accepted.", "quantifier": "all well-formed maps (all histories for ZosditMap), all sequences of intervals and values, valid or not", "why_tests_cant": "acceptance of a call depends on the whole sequence before it; tests fix a few sequences", "anchors": ["src/nodit/map.rs: insert_strict, gaps_trimmed, contains_interval, get_at_point", "src/zosdit/map.rs: insert_strict_back"]}
{"id": "C115", "title": "A container with more in it", "statement": "If a NoditMap covers every point another one covers, it overlaps, contains and refuses whatever the other does, and each of its gaps (gaps_untrimmed, gaps_trimmed) lies in a gap of the other. If moreover all entries of the other are among its entries, this stays so when both are used in the same way with any calls but the refusing inserts (insert_strict, insert_merge_touching, insert_merge_touching_if_values_equal) and the merging inserts; both panic at the same calls, and call by call the fuller map returns what the other returns, in the same order, and possibly more (gaps and first/last accordingly); an insert_strict the fuller map accepts the other accepts too. The points of a NoditSet stay among those of another under overwriting and always-succeeding merging inserts and cuts of both. The identifiers of a Gqdit stay, at every point, among those of another under the same calls, and the gaps of the fuller one lie in gaps of the other. On ZosditMaps, overlapping lists for the fuller map what it lists for the other, in order, is_zero_overlap of the fuller implies that of the other, and an insert_strict_back the other refuses is refused.", "quantifier": "all pairs of well-formed containers one of which has everything the other has, all sequences of calls of the named kinds, valid arguments or not", "why_tests_cant": "relates two runs over all states and all programs", "anchors": ["src/nodit/map.rs: all public methods", "src/nodit/set.rs: insert_merge_overlapping, insert_merge_touching_or_overlapping, insert_overwrite, cut, contains_point", "src/gqdit/mod.rs: insert, cut_with_identifiers, cut_all_identifiers, append, gaps_no_identifier, gaps_with_identifier, identifiers_at_point", "src/zosdit/map.rs: overlapping, is_zero_overlap, insert_strict_back"]}
{"id": "C116", "title": "Where a call can be interrupted by user code, and how much has changed by then", "statement": "Every changing call of NoditMap, NoditSet, Gqdit (append included) and ZosditMap runs user code (Ord, Clone, Eq, Drop, From<Interval>, start/end of the user's types) some number of times. A panic in one of these runs always comes out of the call as that panic, never swallowed and never turned into another result; a panic that would only come later changes neither the result of the call nor the container. If the first run panics, the container is as it was before the call. From one run of user code to the next in the same call, and from the last one to the end of the call, at most one entry (for ZosditMap: one store; for append: one entry of one of the two) is added, removed or replaced (iter_mut and overlapping_mut, whose caller holds references to many values, aside).", "quantifier": "all containers (well-formed or not), all calls with all arguments, all points at which user code may panic", "why_tests_cant": "ranges over all crash points of all calls on all states; a test panics at a few chosen places", "anchors": ["src/nodit/map.rs: insert_*, cut, remove_overlapping", "src/nodit/set.rs: insert_*, cut, remove_overlapping", "src/gqdit/mod.rs: insert, cut_with_identifiers, cut_all_identifiers, append", "src/zosdit/map.rs: insert_strict_back, remove_last_value_at_point, cut"]}
{"id": "C117", "title": "Rolling back with what the calls returned", "statement": "A client that keeps the results of its calls can undo them without having copied the map. After any sequence of insert_strict, insert_overwrite, cut, remove_overlapping, insert_merge_touching_if_values_equal (for values of which equal ones are the same) and queries on a NoditMap - or of all NoditSet calls but insert_merge_overlapping and insert_merge_touching_or_overlapping - undo the calls in reverse order: cut out what an accepted insert put in, insert_strict again what an overwriting, cutting or removing call handed back. No call of this rollback panics or is refused; afterwards every point has the value it had before the sequence, and every entry is a part of an entry that was there before. If only insert_strict, remove_overlapping and queries were called, the map is the very same again. For the other merging inserts there is no such rollback: their result and the map after them do not determine what was in the map before.", "quantifier": "all well-formed maps and sets, all sequences of the named calls, valid arguments or not", "why_tests_cant": "ranges over all states and all sequences of calls, with a second sequence computed from the results of the first; irreversibility ranges over all possible rollback functions", "anchors": ["src/nodit/map.rs: insert_strict, insert_overwrite, cut, remove_overlapping, insert_merge_touching, insert_merge_touching_if_values_equal, insert_merge_overlapping, insert_merge_touching_or_overlapping, get_at_point", "src/nodit/set.rs: insert_strict, insert_merge_touching, insert_merge_overlapping, insert_overwrite, cut, remove_overlapping, contains_point"]}
{"id": "C118", "title": "How entries are divided does not matter to a point-wise client", "statement": "Two NoditMaps have the same value at every point, but their entries may be divided differently (1..=4 with a value, or 1..=2 and 3..=4 with the same one). However both are used in the same way with insert_strict, insert_overwrite, insert_merge_touching_if_values_equal, cut and any queries, with valid arguments or not, they have the same value at every point again; each call panics, is accepted or refused alike in both; and it returns the same, except for where entries begin and end: lists of entries (cut, insert_overwrite, iter, overlapping) have the same values at the same points, first starts at the same point with the same value, last ends at the same point, get_key_value_at_point finds the same value or the same gap; gaps, overlaps, contains_*, is_empty and get_at_point answer the same. The same holds for NoditSets with the same points under every call but remove_overlapping. The calls left out do see the division: for each of them there are two such maps they make differ.", "quantifier": "all pairs of well-formed maps (sets) with the same values at the same points, all sequences of the named calls", "why_tests_cant": "relates two runs over all pairs of representations and all programs", "anchors": ["src/nodit/map.rs: all public methods", "src/nodit/set.rs: all public methods"]}
{"id": "C119", "title": "A first-fit allocator on top of the map", "statement": "A client keeps blocks (intervals of an unsigned integer type) in a NoditMap. To allocate a block of width n (n + 1 points) in a valid range q it goes through gaps_trimmed(q), takes the first gap whose width() is at least n, and passes the first n + 1 points of it to insert_strict; to release a block it cuts it out. No call panics, whatever the map, range and width, and insert_strict never refuses; an allocation succeeds exactly if some block of n + 1 free points lies in q, and then takes the one with the lowest address, adding that entry and changing nothing else; a failed one changes nothing. In any history of allocations and releases the entries of the map are exactly the blocks held, each once, no two sharing a point, and each cut that releases a block returns exactly that block with the value it was allocated for. Released space comes back: a block of at most the released width can be allocated in any range containing the released block.", "quantifier": "all well-formed maps over unsigned integers of any size, all ranges, widths and values; all sequences of allocations and releases", "why_tests_cant": "all maps, all ranges and unbounded histories; the lowest block that fits is a minimum over all blocks", "anchors": ["src/nodit/map.rs: gaps_trimmed, insert_strict, cut", "src/interval.rs: width"]}
{"id": "C120", "title": "Read-modify-write over a range", "statement": "A client applies a function to the value, or absence of a value, of every point of a valid range q: it lists gaps_trimmed(q), cuts q out, inserts the returned pieces again with insert_strict under the function's results (leaving out those it maps to no value), and inserts the gaps if the function gives absent points a value. On every map this never panics and no insert is refused; afterwards each point of q holds what the function makes of what it held and all other points hold what they held; entries not meeting q are unchanged, entries meeting q lie inside it. After any sequence of such updates each point holds the result of applying, in order, exactly the functions whose ranges contain it. In particular, adding numbers over ranges, starting from the empty map, leaves at each point the sum of the numbers whose ranges contain it, and no value where there was no such range.", "quantifier": "all well-formed maps, all valid ranges, all functions on optional values, all sequences of updates", "why_tests_cant": "all maps, ranges, functions and unbounded sequences; every point of the domain", "anchors": ["src/nodit/map.rs: gaps_trimmed, cut, insert_strict, get_at_point"]}
{"id": "C121", "title": "Compaction: merging inserts give the fewest entries", "statement": "A NoditMap made by any history of insert_merge_touching_if_values_equal, cut, remove_overlapping and queries has the fewest entries of all maps, over whatever interval type, with the same value at every point. Inserting disjoint entries, in any order, into a fresh map with insert_merge_touching_if_values_equal is never refused and gives a map with exactly the values of those entries, whose entries are exactly the maximal runs of equal values, so again the fewest. So rebuilding a map from its entries this way keeps every point's value and gives the fewest entries, at most as many as before. A NoditSet made by insert_merge_touching_or_overlapping, insert_merge_touching, cut and remove_overlapping has the fewest intervals of all sets with the same points; inserting any valid intervals, overlapping or not, in any order, into a fresh set with insert_merge_touching_or_overlapping gives exactly their points, in the fewest intervals, at most as many as were inserted.", "quantifier": "all histories of the named calls, all competing maps and sets with the same contents, all lists of entries in all orders", "why_tests_cant": "a minimum over all representations of the same contents, for all histories", "anchors": ["src/nodit/map.rs: insert_merge_touching_if_values_equal, cut, remove_overlapping", "src/nodit/set.rs: insert_merge_touching_or_overlapping, insert_merge_touching, cut, remove_overlapping"]}
{"id": "C122", "title": "Nearest free points and nearest entries", "statement": "On every NoditMap and for every point p: the start of the first gap of gaps_trimmed(p..=MAX) is the least free point that is at least p, and there is no such gap exactly if all points from p on are covered; the end of the last gap of gaps_trimmed(MIN..=p) is the greatest free point that is at most p, likewise; the first entry of overlapping(p..=MAX) is the entry containing p or else starts after p, and no covered point from p on is before it, there being none exactly if nothing from p on is covered; the last entry of overlapping(MIN..=p) likewise downwards. If p is free, the gap reported by get_key_value_at_point(p) is exactly what lies between those two entries.", "quantifier": "all well-formed maps, all points", "why_tests_cant": "least and greatest over all points of the domain, for every map and point", "anchors": ["src/nodit/map.rs: gaps_trimmed, overlapping, get_key_value_at_point"]}
{"id": "C123", "title": "Moving and exchanging a range between two maps", "statement": "A client exchanges the contents of a valid range q between two NoditMaps: it cuts q out of both and inserts what one cut returned into the other with insert_strict. On all pairs of maps nothing panics and no insert is refused; inside q each map then holds at every point what the other held, outside q what it held itself; doing it twice gives back every point's value in both maps. If no entry of either map straddles an end of q, the entries in q change sides as they are, and doing it twice gives back exactly the same two maps. A client that moves a range (cut from the first map, insert_overwrite of each piece into the second) leaves q empty in the first map; the second holds in q what the first held there, where it held something, and what it held itself everywhere else.", "quantifier": "all pairs of well-formed maps, all valid ranges", "why_tests_cant": "all pairs of maps, ranges and points", "anchors": ["src/nodit/map.rs: cut, insert_strict, insert_overwrite, get_at_point"]}
{"id": "C124", "title": "Replicas converge", "statement": "Several replicas of a Gqdit (or NoditSet), all starting new, are changed by local inserts and by receiving copies of each other, which the receiver merges (Gqdit: append; NoditSet: insert_merge_touching_or_overlapping of every interval). Whatever the schedule of inserts and deliveries, with copies sent repeatedly, out of order or through other replicas, no call panics, a replica holds exactly what the inserts it has heard of (its own, and those known to a sender when it sent) give: at each point the identifiers of the inserts covering it, or for sets the points of the intervals. Two replicas that have heard of the same inserts are equal (==), for sets of Interval even if they have only heard of intervals with the same points.", "quantifier": "all sets of replicas, all schedules of inserts of valid intervals and deliveries", "why_tests_cant": "unbounded interleavings of inserts and deliveries at any number of replicas", "anchors": ["src/gqdit/mod.rs: insert, append, identifiers_at_point", "src/nodit/set.rs: insert_merge_touching_or_overlapping"]}
{"id": "C125", "title": "Recovery from snapshot and log", "statement": "A client logs every changing call before making it, from time to time serialises the container to a snapshot and starts a new log, and after a crash deserialises the last snapshot and repeats the logged calls. For NoditMap, NoditSet and Gqdit, whatever the history of calls (also panicking ones, caught), checkpoints and crashes (between calls, before a call reached the log, after it was logged but before it was made, repeatedly), recovery never fails or panics and the container is exactly the one the logged calls alone lead to. For ZosditMap this holds for the sequence of entries, all queries but len() and is_empty(), and the results of further calls, as long as cut is not used; len() lies between the number of entries and what it would be without crashes; after a cut the recovered order of values of one point can differ. A NoditMap snapshot that breaks off after n elements is refused if the format reports it, and otherwise silently read as the first n entries.", "quantifier": "all containers, all histories of calls, checkpoints and crashes at any point", "why_tests_cant": "every crash point of every history", "anchors": ["src/nodit/map.rs: serde::Serialize, Deserialize, visit_seq", "src/nodit/set.rs: serde", "src/gqdit/mod.rs: serde", "src/zosdit/map.rs: serde, insert_strict_back, remove_last_value_at_point, cut, len"]}
{"id": "C126", "title": "Walking over a map by point lookups", "statement": "A client starts at the least point and repeats: look up get_key_value_at_point(p), which gives an entry or a gap, and go on at the point after its end, until there is none. On every well-formed NoditMap this never panics and ends after at most 2*len()+1 lookups; the entries found are those of iter(), in order; the gaps found are those of gaps_untrimmed over all points, in order; entries and gaps together are ascending and every point lies in exactly one of them.", "quantifier": "all well-formed maps, all lawful point and interval types", "why_tests_cant": "all maps and point types; termination bound for every map", "anchors": ["src/nodit/map.rs: get_key_value_at_point, gaps_untrimmed, iter, len"]}
{"id": "C127", "title": "Joining two maps", "statement": "A client joins two NoditMaps: for every entry (k, v) of the first and every entry (d, w) among overlapping(k) of the second it inserts (k.intersection(d), (v, w)) with insert_strict. On all pairs of maps nothing panics and no insert is refused; the entries of the result are exactly the non-empty intersections of an entry of the one and an entry of the other, with both values; a point holds (v, w) exactly if the first map holds v there and the second w; the result has at most len() + len() entries.", "quantifier": "all pairs of well-formed maps", "why_tests_cant": "all pairs of maps and all points", "anchors": ["src/nodit/map.rs: overlapping, insert_strict, get_at_point, iter, len", "src/interval.rs: intersection"]}
{"id": "C128", "title": "Shifting a whole map", "statement": "A client translates every entry of a NoditMap by d and collects the results with from_iter_strict (primitive integer points, overflow checks on). This panics (overflow) exactly if some shifted entry leaves the range of the point type; otherwise no insert is refused, the result has the shifted entries in the same order, get_at_point at p + d gives what the map gave at p, and points that are not p + d for any p hold nothing. Shifting back by -d, where that exists, gives the original map.", "quantifier": "all integer point types, all well-formed maps, all offsets", "why_tests_cant": "all maps, offsets and points", "anchors": ["src/interval.rs: translate", "src/nodit/map.rs: from_iter_strict, get_at_point, into_iter"]}
{"id": "C129", "title": "Timelines", "statement": "A client fills a ZosditMap with insert_strict_back, in ascending order, with entries that start at or after the end of the one before (zero-length ones included): no insert is refused, the iteration is the sequence of these entries and len() their number. If each starts exactly where the one before ended, the map is gapless; and in every gapless map, however it came about, get_last_value_at_point is at every point, shared ends included, the value of the last entry that contains it, and None only where no entry is (every point between two held points has a value); cut(q) returns and removes exactly the parts inside q; and remove_last_value_at_point at the end of the last entry returns its value and leaves the other entries, a gapless map again.", "quantifier": "all sequences of such entries; all histories that leave a gapless map; all points and intervals", "why_tests_cant": "all timelines of any length, all points, and all histories", "anchors": ["src/zosdit/map.rs: insert_strict_back, get_last_value_at_point, remove_last_value_at_point, cut, iter, len"]}
{"id": "C130", "title": "Differences between maps, and patches", "statement": "A client compares two NoditMaps entry by entry with get_key_value_at_point(key.start()) and gets a patch: the entries of the first that the second lacks (to remove) and those of the second that the first lacks (to add). It applies a patch with remove_overlapping (each must return exactly the entry to remove) and insert_strict (none may be refused), else it reports a conflict. For all maps: comparing never panics and gives exactly these entries, none exactly if the maps are equal; applying never panics, succeeds exactly if the map has all entries to remove and no other entry of it meets one to add, and then gives the map's other entries and the added ones; the patch turns the first map into the second, the reversed patch the second into the first; and two patches to one map that touch different points can be applied in either order with the same result, which has the changes of both.", "quantifier": "all pairs and triples of well-formed maps, all patches", "why_tests_cant": "all maps and all patches of any size", "anchors": ["src/nodit/map.rs: get_key_value_at_point, remove_overlapping, insert_strict, iter, eq"]}
{"id": "C131", "title": "Making room and closing up", "statement": "A client keeps attributes of the cells of a text in a NoditMap with primitive integer points. To make room for n >= 0 cells before p it calls cut(iu(p)), translates the cut parts by n and puts them back with insert_strict; to delete n >= 1 cells from p on it calls cut(ie(p, p + n)) and cut(iu(p + n)), builds the moved intervals with ii and puts them back with insert_strict. Making room panics (overflow) exactly if one of the last n cells from p on holds a value; otherwise the cells before p keep their values, the n new cells hold nothing, and each later cell holds what the cell n before it held. Deleting panics (overflow) exactly if p + n is no point; otherwise the cells before p keep their values, each later cell holds what the cell n after it held, and the last n cells nothing. No insert is ever refused, and deleting the room just made gives every cell its value back.", "quantifier": "all integer point types, all well-formed maps, all positions, numbers of cells and cells", "why_tests_cant": "all maps, positions, numbers and cells", "anchors": ["src/nodit/map.rs: cut, insert_strict, get_at_point", "src/interval.rs: iu, ie, ii, translate"]}
{"id": "C132", "title": "The most specific interval wins", "statement": "A client has a list of intervals with values, any two disjoint or one inside the other and no two the same (as IP prefixes are). It sorts them by start (of the same start, the longer first) and calls insert_overwrite for each on a new NoditMap. Nothing panics; get_at_point(p) is Some(v) exactly if v is the value of the listed interval that contains p and lies inside all others that contain p, and None exactly if none contains p; and the map does not depend on the order of the list.", "quantifier": "all such lists and all points", "why_tests_cant": "all lists of nested intervals and all points", "anchors": ["src/nodit/map.rs: insert_overwrite, get_at_point, new"]}
{"id": "C133", "title": "Rooms for meetings", "statement": "A client gives rooms (numbers) to meetings (intervals) in the order of their starts: it keeps a Gqdit with the rooms as identifiers, takes the least number not in identifiers_at_point(start of the meeting) and calls insert with it. For every such list of valid intervals nothing panics, every meeting gets a room, no two meetings sharing a point get the same, identifiers_at_point gives at every point exactly the rooms of the meetings there, the rooms used are numbered 0, 1, 2, ... without holes, room r is used only if r + 1 meetings share a point, and no collision-free assignment has fewer rooms.", "quantifier": "all lists of valid intervals with ascending starts, all points, all other assignments", "why_tests_cant": "all lists of meetings, and all assignments to compare with", "anchors": ["src/gqdit/mod.rs: new, insert, identifiers_at_point"]}
{"id": "C134", "title": "Exactly which collections can come about", "statement": "A NoditMap with given entries is the result of some sequence of calls on a new map if and only if its intervals are valid, ascending and disjoint; likewise a NoditSet, and with only the calls that merge what touches if and only if moreover no two of its intervals touch; a Gqdit comes about if and only if every point is in exactly one interval and touching intervals hold different identifier sets (with intervals made by From<Interval>); a ZosditMap can report a sequence of entries together with a length if and only if every entry lies at or before the next and the length is not smaller than the number of entries.", "quantifier": "all collections, all sequences of calls", "why_tests_cant": "quantifies over all states and, for the unreachable ones, over all histories", "anchors": ["src/nodit/map.rs", "src/nodit/set.rs", "src/gqdit/mod.rs", "src/zosdit/map.rs"]}
{"id": "C135", "title": "Putting a message together from its fragments", "statement": "A receiver collects fragments (intervals) in a NoditSet with insert_merge_touching_or_overlapping; the network may lose, repeat and reorder fragments; the receiver reports gaps_trimmed(whole message) at any times, and the sender answers any reports, also outdated ones. For every schedule of sends, deliveries, reports and answers: nothing panics; the receiver has only points of fragments that were sent; a delivered fragment has arrived completely, changes no other point, and stays; a report asks for exactly the points of the message then missing; once every interval some report (however old) asked for has arrived, in whatever pieces, contains_interval(message) is true, which is the case iff the next report would be empty; in particular it is complete if some report is answered and each fragment of the answer is delivered at least once, whatever else happens; get_at_point(first point) ends at the last point up to which everything has arrived, and is an error iff the first point is missing; and if the same points have arrived by two schedules the two sets are equal.", "quantifier": "all schedules of sends, deliveries (any fragment, any number of times, any order), reports and answers; all messages; all points", "why_tests_cant": "unboundedly many schedules of a faulty network", "anchors": ["src/nodit/set.rs: insert_merge_touching_or_overlapping, gaps_trimmed, contains_interval, contains_point, get_at_point"]}
{"id": "C136", "title": "Shared and exclusive locks on ranges", "statement": "A lock manager keeps the writers in a NoditMap and the readers in a Gqdit: a read of a range is granted iff overlapping(range) of the writers shows nobody else (and is then inserted with the owner as identifier), a write iff also gaps_with_identifier(owner, range) of the readers has one gap around the whole range (and is then done with insert_overwrite); releasing removes the own locks only (cut_with_identifiers; gaps/cut/insert for the writers). For every sequence of requests by any owners: nothing panics; a request is granted iff no point of its range is locked by somebody else in a conflicting way; get_at_point and identifiers_at_point always give exactly the locks held; nobody reads a point somebody else writes; nobody loses a lock without saying it is done; and when all who asked are done nothing is locked.", "quantifier": "all finite sequences of requests, owners, ranges and points", "why_tests_cant": "unboundedly many interleavings of requests by any number of owners", "anchors": ["src/nodit/map.rs: overlapping, insert_overwrite, gaps_trimmed, cut, insert_strict, get_at_point", "src/gqdit.rs: insert, cut_with_identifiers, gaps_with_identifier, identifiers_at_point"]}
{"id": "C137", "title": "Groups of connected intervals", "statement": "A client inserts any valid intervals with values into a fresh NoditMap with insert_merge_overlapping (or insert_merge_touching_or_overlapping). Two of the intervals belong together if there is a chain of inserted intervals from one to the other, each overlapping (or touching) the next. Nothing panics; each entry has exactly the points of one such group and each group has its entry; get_key_value_at_point at any points of two inserted intervals gives the same entry iff they belong together; the value of a group is the one inserted last with one of its intervals; len() is the number of groups; and neither the order of the inserts nor repeating some matters for the intervals of the map. The same for NoditSet and get_at_point.", "quantifier": "all finite lists of valid intervals with values, all points", "why_tests_cant": "unboundedly many inputs, chains of any length, all orders", "anchors": ["src/nodit/map.rs: insert_merge_overlapping, insert_merge_touching_or_overlapping, get_key_value_at_point, get_at_point, len", "src/nodit/set.rs: insert_merge_overlapping, insert_merge_touching_or_overlapping, get_at_point"]}
{"id": "C138", "title": "Painting back to front and front to back", "statement": "A client has a list of layers (valid intervals with values), a later one hiding the earlier ones. Painting them in this order into a fresh NoditMap with insert_overwrite, or in the opposite order by inserting with insert_strict what gaps_trimmed(interval) still reports as free, never panics and no insert_strict is refused. Both give the same value at every point, the one of the last layer containing it (none if there is none); with Interval as interval type both give the same map, whose entries are exactly the maximal visible runs of the layers, each with its layer's value (runs of different layers are not merged, even if they touch and have equal values). n layers show at most 2n - 1 entries.", "quantifier": "all finite lists of layers, all points and intervals", "why_tests_cant": "unboundedly many lists of layers; equality of two different algorithms on all of them", "anchors": ["src/nodit/map.rs: insert_overwrite, gaps_trimmed, insert_strict, get_at_point, iter, len"]}
{"id": "C139", "title": "Paging through a map that changes", "statement": "A client reads a NoditMap page by page: overlapping(cursor to MAX), of which it takes at most k entries (k >= 1, possibly another k each time); the next cursor is the point after the end of the last entry read, None if there is none. Whatever happens to the map between the pages, reading never panics, each page lists entries in order that are in the map at that time, over all pages the ends of the entries ascend strictly and no entry is delivered twice. An entry that is in the map whenever a page is read has been delivered exactly if it ends before the cursor reached; once the cursor is None, all such entries have been delivered. If nobody changes the map, n pages of k entries are its first n*k entries and the cursor is None at the latest one page after the last entry.", "quantifier": "all finite sequences of well-formed maps (the versions read) and page sizes, all starting cursors, all entries", "why_tests_cant": "unboundedly many ways in which the map can change between pages", "anchors": ["src/nodit/map.rs: overlapping, iter, len", "src/interval.rs: InclusiveInterval::end", "src/discrete_finite.rs: DiscreteFinite::up"]}
{"id": "C140", "title": "Recognising numbers already seen, with bounded memory", "statement": "A receiver of numbered messages keeps a NoditSet of the numbers accepted: a number is refused if it is below the limit (at first the least point) or contains_point is true; otherwise it is inserted as a one-point interval with insert_merge_touching, and if then len() > n (n >= 1), the first interval is removed and the limit set to the point after its end. Whatever numbers arrive in whatever order, nothing panics, at most n intervals are kept and no number is accepted twice. A number is refused only if it was accepted before or n larger numbers were accepted. The intervals kept are exactly the maximal runs of accepted numbers from the limit on.", "quantifier": "all finite sequences of points, all n >= 1, all lawful point and interval types", "why_tests_cant": "unboundedly many orders of arrival", "anchors": ["src/nodit/set.rs: contains_point, insert_merge_touching, len, first, remove_overlapping", "src/nodit/map.rs: insert_merge_touching, remove_overlapping"]}
{"id": "C141", "title": "Toggling ranges", "statement": "A client toggles intervals in a NoditSet: gaps_trimmed(q), cut(q), then insert_merge_touching of each gap. On a set whose intervals are the maximal runs of its points, and with a valid interval, this never panics, no insert is refused, exactly the points of q change sides, and the intervals are again the maximal runs. After toggling a list of intervals in a new set, its intervals are exactly the maximal runs of the points contained in an odd number of them (the even-odd rule). With Interval as interval type, only the parities count: any order gives the same set, toggling the same intervals again restores it. Toggling the intervals of another set gives the symmetric difference.", "quantifier": "all finite lists of valid intervals, all tidy sets, all points", "why_tests_cant": "unboundedly many lists of overlapping intervals", "anchors": ["src/nodit/set.rs: gaps_trimmed, cut, insert_merge_touching, iter", "src/nodit/map.rs: gaps_trimmed, cut, insert_merge_touching"]}
{"id": "C142", "title": "Choosing as many intervals as possible", "statement": "A client offers requested valid intervals to a new NoditMap with insert_strict in the order of their ends, ignoring refusals. Nothing panics, the entries are some of the requests, and no selection of requests in which no two overlap has more elements than len(). The ends of the accepted intervals are a set of points that meets every request, and no set with fewer points does.", "quantifier": "all finite lists of valid intervals with values ordered by their ends, all selections from them, all lists of points", "why_tests_cant": "exponentially many selections of unboundedly many requests", "anchors": ["src/nodit/map.rs: insert_strict, iter, len"]}
{"id": "C143", "title": "A cache of ranges", "statement": "A client caches ranges of a changing table in a NoditMap: a read of a valid interval fetches and inserts (insert_strict) what gaps_trimmed reports, then reads overlapping; a write to a range of the table cuts it out of the map. Over any sequence of reads and writes starting from an empty map nothing panics; each read fetches, as ascending disjoint intervals, exactly the points of its range not read since they were last written, and the entries it finds cover its range, each point once, with what the table has there now. While nothing is written, all that is ever fetched are disjoint intervals which together have exactly the points read.", "quantifier": "all sequences of reads and writes of valid intervals, all tables, all fetch functions that give what the table has", "why_tests_cant": "unboundedly many interleavings of reads and writes", "anchors": ["src/nodit/map.rs: gaps_trimmed, insert_strict, overlapping, cut"]}
{"id": "C144", "title": "Nested transactions by overlays", "statement": "A client gives a NoditMap nested transactions: an open transaction writes to an overlay, a NoditMap of Options (None for deleted), reads go through the overlays to the map with get_at_point, commit applies an overlay to the one below (insert_overwrite) or to the map (insert_overwrite and cut), rollback drops it. For any sequence of begin, commit, rollback, set, unset and get with valid intervals nothing panics, every get gives what it gives if begin saved a full copy and rollback restored it, and when no transaction is open the map has exactly this at every point. Whatever balanced sequence is between a begin and its rollback, the map and the other overlays are afterwards the same, entry for entry.", "quantifier": "all maps, all sequences of events, all depths of nesting, all points", "why_tests_cant": "unboundedly many interleavings of nested transactions", "anchors": ["src/nodit/map.rs: insert_overwrite, cut, get_at_point, iter"]}
{"id": "C145", "title": "Where most intervals overlap", "statement": "A client inserts its valid intervals in a new Gqdit, each with a number of its own, and takes the largest identifiers_at_point(start).len() over their starts. Nothing panics; no point is in more of the intervals than that, and some point is in exactly so many.", "quantifier": "all finite lists of valid intervals, repetitions allowed, all points", "why_tests_cant": "unboundedly many intervals; the maximum is over all points", "anchors": ["src/gqdit/mod.rs: insert, identifiers_at_point"]}
{"id": "C146", "title": "Shards", "statement": "A client spreads one NoditMap over shards: each has a territory (an interval; territories may overlap) and gets of every insert_overwrite and cut what InclusiveInterval::intersection leaves of its interval in the territory. For all sequences of such writes with valid intervals nothing panics, reading a point from the first shard whose territory has it (contains_point, get_at_point) gives what the one map gives, points in no territory read as none, and no shard stores anything outside its territory.", "quantifier": "all lists of territories, all sequences of writes, all points", "why_tests_cant": "unboundedly many writes and partitions", "anchors": ["src/interval.rs: InclusiveInterval::intersection, contains_point", "src/nodit/map.rs: insert_overwrite, cut, get_at_point"]}
{"id": "C147", "title": "Reading a range without holes", "statement": "A client reads a valid range of a NoditMap as pieces: overlapping(q), clipped with InclusiveInterval::intersection, together with gaps_trimmed(q) as holes, sorted by their starts. Nothing panics; the pieces are ascending disjoint intervals which together have exactly the points of the range, and at each point of a piece get_at_point gives the piece's value, or none if it is a hole.", "quantifier": "all maps, all valid ranges, all points", "why_tests_cant": "all maps and all ranges; every point of the range", "anchors": ["src/nodit/map.rs: overlapping, gaps_trimmed, get_at_point", "src/interval.rs: InclusiveInterval::intersection"]}
{"id": "C148", "title": "The point with a given number", "statement": "A client walks over the entries of a NoditMap, within each entry from its start to its end with up(), and stops at the k-th point. It does not panic; it finds the point p exactly if p is in an entry and exactly k points of the entries are before p, and it finds none exactly if the entries have no more than k points.", "quantifier": "all maps, all numbers k, all points", "why_tests_cant": "all maps and all numbers", "anchors": ["src/nodit/map.rs: iter", "src/discrete_finite.rs: DiscreteFinite::up"]}
{"id": "C149", "title": "Choosing as many back-to-back bookings as possible", "statement": "A client offers bookings with more than one point, in the order of their ends (ties in any order), to a new ZosditMap with insert_strict_back; a booking may start at the point where another one ends. No selection of the offered bookings which are compatible with each other has more bookings than the map afterwards.", "quantifier": "all lists of bookings of more than one point ordered by their ends, all selections, all binary searches of the tree", "why_tests_cant": "all lists of bookings and all selections of them", "anchors": ["src/zosdit/map.rs: insert_strict_back, iter"]}
{"id": "C150", "title": "As many rooms as meetings at once", "statement": "A client gives the meetings rooms in the order of their starts, taking the first room that is not among identifiers_at_point(start) of a Gqdit (C133). Another client inserts the same meetings, in any order, with different identifiers into another Gqdit and takes the greatest number of identifiers_at_point at their starts (C145). The number of different rooms is the number the other client finds, and none of the calls panics.", "quantifier": "all lists of valid meetings ordered by their starts, all permutations of them for the other client", "why_tests_cant": "all lists of meetings", "anchors": ["src/gqdit.rs: Gqdit::insert, Gqdit::identifiers_at_point"]}
{"id": "C151", "title": "The free point with a given number", "statement": "A client walks over the gaps gaps_trimmed(range) of a NoditMap, within each gap from its start to its end with up(), and stops at the k-th point. It does not panic; it finds the point p exactly if p is a free point of the range and exactly k free points of the range are before p, and it finds none exactly if the range has no more than k free points.", "quantifier": "all maps, all valid ranges, all numbers k, all points", "why_tests_cant": "all maps, ranges and numbers", "anchors": ["src/nodit/map.rs: gaps_trimmed", "src/discrete_finite.rs: DiscreteFinite::up"]}
