# Formal model of ripytide/nodit in Lean 4

Source: `/repo` (nodit 0.9.2). Nothing of it is run; the model is a hand translation, every definition
cites file and lines.

## 1. What is modelled, and how

| Rust | Lean |
|---|---|
| `DiscreteFinite`/`PointType` (`discrete_finite.rs`, `nodit/map.rs:72-75`) | class `PointType I` (linear order + `MIN MAX up down`) and class `LawfulPoint I` (the doc-comment contract). All theorems are generic in any lawful `I`; the primitive integers and the README's `WithInfinity` are *proved* lawful. |
| `InclusiveInterval`/`IntervalType` (`interval.rs`) | class `IntervalType I K` (`start`, `stop` [= Rust `end`], `ofInterval` [= `From<Interval<I>>`]); `LawfulInterval`: `ofInterval` keeps start and end. All map theorems are generic in `K`, and in the query type `Q`. |
| `panic!`, `unwrap`, `unreachable!`, arithmetic overflow | explicit `Except Panic`: every such site in the code is a site in the model. |
| `btree_monstrousity::BTreeMap<K,V>` (external, source not available) | the in-order list of entries, searched with the same comparator closures (target vs. inner key): scan from the left, `Greater` = go on, `Equal` = hit, `Less` = stop. Cursors are (entries before, entries from current on), with the "ghost" element after the end, as in the nightly std cursor API the crate forks. `Verif/Tree.lean` shows that for monotone comparators with at most one hit this does not depend on the shape of the search tree (C50); `Verif/TreeMap.lean` lifts this to whole histories (C91). |
| `&mut self` | returns the new value; a panicking call leaves the old value (justified: C02/C34/C37 show the only reachable panic is the argument check, which is the first statement of each method). |
| lazy iterators | the list they yield; `Verif/Iter.lean` also models them as machines driven by single `next()`/`next_back()` calls, and C83/C84 relate the two. |
| `V: Clone` | identity in the main model; any function with effects in `Verif/Clone.lean` (C98 relates the two). `V: Eq` in `insert_merge_touching_if_values_equal`: an arbitrary `BEq V`. |
| `alloc::BTreeSet<D>` (in `Gqdit`) | `Finset D` in the main model. In `Verif/GqditSets.lean` it is the list of its elements, ascending in the identifiers' own `Ord`, with the standard library's `insert`, `extend`, `retain`, `contains` and `==`; C107 relates the two. |
| `SmallVec<[V;2]>` (in `ZosditMap`) | `List V`. |
| `itertools::{coalesce, tuple_windows}` | list functions written out in the model; as adapters on `next()` calls in `Verif/Iter.lean`, shown to agree (C84). |
| serde | the sequence of elements handed to / read from the (de)serializer; an element that fails to decode is `none`. Byte formats are not modelled. |

Not modelled: memory, performance, the `Debug` derives, thread-safety (no shared state in the
crate), the internals of the B-tree's node splitting/merging, user types whose `Ord`, `DiscreteFinite`, or
`From<Interval>` break their documented contract, except for C69 (any interval type, as long as no key is built) and C70
(the README's `Reservation`, whose `From<Interval>` writes `end.up()` into an inclusive end) and C95 (any total order with
arbitrary `up`, `down`, `MIN`, `MAX`).

## 2. Files

* `Verif/Point.lean`, `Interval.lean`, `IntervalOps.lean`, `Utils.lean`, `BTree.lean`, `NoditMap.lean`,
  `NoditSet.lean`, `Gqdit.lean`, `Zosdit.lean`, `Serde.lean`: the model.
* `Verif/Tree.lean`: n-ary search trees, for the claim that the list model of the B-tree loses nothing. `Verif/TreeMap.lean`: the
  three structures over such trees (C91).
* `Verif/History.lean`: call histories (`Op`, `step`, `run`) of `NoditMap`, `NoditSet`, `Gqdit` and `ZosditMap`.
* `Verif/Reservation.lean`: the README's custom interval type, and its repaired form.
* `Verif/SetHistory.lean`, `Verif/CrashSet.lean`: histories of all calls of `NoditSet` with results, undisturbed and with panics of user code.
* `Verif/Crash.lean`, `Verif/CrashGq.lean`, `Verif/CrashZ.lean`, `Verif/CrashSpec.lean`: calls interrupted by panics of user code, and what they may leave.
* `Verif/Iter.lean`, `Verif/IterSpec.lean`: the iterators and their adapters call by call, and what a caller sees of them.
* `Verif/Equality.lean`, `Verif/SerdeInterval.lean`: the derived `PartialEq`s; the derived serde of `Interval`.
* `Verif/Clone.lean`: the methods that call `V::clone`, with an arbitrary `clone()`.
* `Verif/Usize.lean`: the counter of `ZosditMap` as a machine integer (C96).
* `Verif/Program.lean`: programs with several containers in variables, the derived `Clone`s, and their reference (C99).
* `Verif/RangeBounds.lean`: `impl RangeBounds for Interval`; `Verif/RangeIter.lean`: iterated `RangeInclusive`s and their conversion.
* `Verif/GqditSets.lean`: `Gqdit` with its identifier sets as ordered sequences (C107).
* `Verif/GqSpec.lean`: programs with several `Gqdit`s, and their reference contents.
* `Verif/Spec.lean`, `Verif/ZSpec.lean`: the specification vocabulary (membership of points, overlap, touch, maximal
  run, reference machines). It uses no model function, only `start`/`stop`.
* `Verif/Lemmas/*.lean`: proofs.
* `Verif/Props/*.lean`: the property theorems (names `Cnn_...`) with non-vacuity examples.
* `Verif/Props/Instances.lean`, `Instances2.lean`, `Instances3.lean`: concrete cases for theorems that have no example next to them.
* `Verif/Props/Repairs.lean`: appendix, *not about the code of `/repo`*: `ZosditMap` with four small changes (findings 1-4), for which the
  documented behaviour is proved without exceptions (`Repair_zosdit_...`).
* `Verif/Props/FullStatements.lean`: the full statement of each property that is proved only in part, as a proposition
  (`Cnn_Full`), and its refutation (`Cnn_full_refuted`).
* `Verif/Props/RepoTests.lean`: validation of the model against the crate: its unit tests and the doc examples, with the
  expected values copied from `/repo`, evaluated on the model by `decide`. These are tests, not claims.

## 3. Plan per property

* C01, C02, C18-C20: operations as an inductive type `Op`, `step`, `run`; invariant `WF` (valid, pairwise
  below) by induction over the operation list; per-operation theorems assemble into a refinement to a
  machine over sets of entries.
* C03-C16, C19: per-operation theorems on any well-formed map, via: monotone predicate on an ordered list
  ⇒ `takeWhile`/`dropWhile` = `filter`; so every search, range and cursor loop equals a filter/flatMap
  normal form; then membership reasoning over the linear order.
* C17: induction over the input; order independence from "sorted list with given members is unique".
* C21, C22: refinement to `I → Option V` and `I → Prop`. C22 also: histories of all methods with results refine a plain set of
  intervals (`SetSpecStep`, deterministic), by simulation of the inner map (`Verif/SetHistory.lean`, `Props/SetHistory.lean`); the
  same simulation carries C78 and C93 over to sets.
* C23-C25: case analysis with the successor laws; C25 also with the standard library's `RangeInclusive` and its `exhausted` flag
  (`Verif/RangeIter.lean`), by an invariant of iteration. C26: bounded integers with checked/wrapping addition.
  C27: false of the code (release wrap) — counterexample and partial theorem.
* C28, C29: instance proofs of `LawfulPoint`.
* C30-C34: Gqdit invariant: all points covered, neighbouring entries have different sets, keys are images of
  `ofInterval`; refinement to `I → Finset D`; gaps are maximal runs by the invariant.
* C35: receiving side proved; the claim about `other` is false (it is left with no covering entry) —
  counterexample and partial theorem.
* C36-C45: Zosdit invariant (weak chain, non-empty stores, stores with several values are singular).
  C39 (after `cut` created two equal singular keys), C40 (gap after the entry ending at the point), C42
  (`remove_last_value_at_point` forgets `len`), C43 (entry wholly before the cut) are false of the code:
  counterexamples by evaluation of the model from `new()`, exact/partial theorems for the rest.
* C46-C49: induction over the element list. C47 (panics on an invalid interval instead of `Err`), C48, C49
  are false in part — counterexamples and partial theorems.
* C50: inductive n-ary search trees; search by in-node scan and descent equals list search.

* C51: direct, from sortedness. C52, C53 (canonical form): a well-formed list is determined by the points and values it
  covers; merged maps are the coarsest such list.
* C54-C61 (laws relating several calls: commuting, idempotence, undo, gap filling, complement, independence of the query
  type): from the exact per-operation theorems, by extensionality of well-formed lists.
* C62-C68: the exact behaviour of `ZosditMap`, bugs included: forward simulation to the machine of `ZSpec.lean`, whose
  state is the entry sequence, the number of removals and a was-cut flag; C63-C68 are consequences.
* C69: the refinement proof of C18 without the interval law. C70: successor laws and the normal forms of `cut` and the gap
  calls, instantiated at `Reservation`.
* C71: weak representation (well-formed, `I → Option (Finset D)`), induction over programs. C72: the pieces listed before
  the final coalescing form a chain, also if end points of the query lie in holes. `C72_gaps_with_identifier_exact` (`Props/GqditHoles.lean`): the points of the pieces
  found to the left, inside and to the right are those of `Spec.GapWith`, and a list of intervals no two of which touch is the
  list of the maximal runs of its points.
* C73: from canonicity (C33) and pointwise set algebra.
* C74: split the input at its first unusable element; C47's lemmas for the prefix.
* C75: order calculations on end-points (`Verif/Props/IntervalLaws.lean`).
* C76: linear arithmetic on checked integers; congruences modulo the size of the type for wrapping ones.
* C77: `Verif/RangeBounds.lean` models `impl RangeBounds for Interval` and transcribes the standard library's
  `RangeBounds::contains` and `BTreeMap::range`; monotone `takeWhile`/`dropWhile` are filters.
* C78: `Verif/Crash.lean` transcribes the changing methods of `NoditMap` a second time, as imperative programs in a state
  monad that keeps the state on unwinding, with a mark wherever user code (`Ord`, `From<Interval>`, `Clone`, `Eq`, `Drop`)
  can run and a fuel that says at which mark it panics. `Verif/CrashSpec.lean` says what may be left. Proof: Hoare-style
  triples with a crash postcondition, loop invariants for the two cursor loops, then induction over histories.
* C79: `Verif/CrashGq.lean` does the same for `Gqdit`. The loops that put pieces back keep an invariant "each point is as
  before, as after, or empty"; whatever is left is again a deserialisable state, so C71's machinery applies to it.
* C80: `Verif/CrashZ.lean` does the same for `ZosditMap`, with the counter as part of the state. The reference machine of
  C62 gets one more step, "partly cut"; `Represents` of C62 is preserved by it.
* C81: lengths of duplicate-free lists compared by injections: an entry lies between two gaps, a stored `Gqdit` interval ends
  where an argument starts or ends; at most one entry lies around the cut interval.
* C82: case analysis over the order of the four end points.
* C83: the iterators as machines (edges of the B-tree range, remaining count, inner/outer iterators of `flat_map`); a
  simulation relation "what is left is `l`" kept by `next` and `next_back`, one lemma per adapter, then induction over the calls.
* C84: the same simulation for `chain`, `tuple_windows`, `map` with panicking closures, `filter`, `take_while`, `rev`,
  `coalesce`; the functions consuming iterators are programs over single calls whose only result is the list model's.
* C85: induction over histories with the reference contents of `GqSpec`; the gap claims through the uniqueness of the
  ascending list of maximal runs (C05 against C31/C32).
* C86: the exact laws of `ZosditMap` (C63-C66) and of `NoditMap` determine the same list, because two ascending chains with
  the same entries are equal.
* C87, C88: naturality. Every model function commutes with a map of keys that keeps `start`, `end` and `From<Interval>`
  and with a map of values; lifted to `step`, `run` and `eval`. For keys whose `From` is faithful on valid intervals only,
  the invariant C01, transported from the `Interval` side, shows that no other interval is converted, except by gap queries.
* C89: replace keys and values by their equivalence classes (a quotient type is an interval type again) and use the naturality
  of C87/C88; extensionality from C03 and the uniqueness of sorted lists.
* C90: induction over the input of the derived visitor; the errors (`Props/SerdeErrors.lean`) by splitting the input at its first wrong item.
* C87, C89, C91, C95 for whole `NoditSet` histories with results: `Props/SetTransfer.lean`, through the simulation of `Props/SetHistory.lean`;
  `C89_equal_ends_needed` shows that the condition on `==` of keys in C89 is necessary.
* C91: all functions again over search trees (`Verif/TreeMap.lean`), with an adversary that reshapes the tree after every change;
  simulation of the model over lists, call by call (C50) and then by induction on the history.

* C92: per call from the reference machine (C20), then induction on the history.
* C93: frame lemma for the reference machine (adding entries not near the argument changes neither result nor effect), and that
  the new entries lie within the argument and the old entries near it; with determinism (C20) a simulation of the shared map by one
  map per client, by induction on the schedule. One frame lemma, with "near" meaning overlap-or-touch or, for calls that do not
  join touching entries, overlap only, gives both versions.
* C94: false of the code with removals and cuts (counterexamples); frame for all calls and non-interference of inserts from the exact
  machine (C62).
  `Props/ZosditClients.lean`: a simulation between the entries in a client's region in the schedule and when it is alone; the other
  clients' calls need only do nothing or something like their job, so a client is disturbed only through its own undocumented calls;
  applied to the repaired map it gives the claim in full (`Repair_zosdit_clients`).
* C95: the refinement proofs of C20/C62 again, for the calls that do not use the neighbours of a point, without the assumption
  `LawfulPoint`; lookups from the search lemma.
* C96: `Verif/Usize.lean` has the functions that change the counter again, with checked or wrapping machine arithmetic; both are related to
  the unbounded counter step by step; the bound inside `cut` from: only the last entry met can leave a part after the cut, and entries
  with parts outside have one value.
* C97: the reference function of C30 changes an identifier at a point only by calls about that pair, and independently of all else;
  induction on the schedule; canonicity (C33) for the final `Gqdit`s, C72 for the gap queries.
* C98: the loops are transcribed with `clone()` as a function on values and an outside state. One call: induction on the loop, the
  entries left of those cut are mapped by `cloneEach`. Histories: the run is natural in the values; it is carried out on pairs of
  related values and projected twice.
* C99: a small language of statements on variables, run with the modelled functions (`Verif/Program.lean`), is simulated by the same
  statements on plain values (`SpecProg`, `GqSpecProg`). Each statement is one case: calls by C78-C80 (interrupted calls included),
  building by C17, C22, C45 and C74; then induction on the program. Identity of copies: a well-formed map is determined by its entries.
* C100: the loops are client code (`Verif/Props/SetAlgebra.lean`), every call in them a modelled function. Induction on the list of
  intervals with the point-wise effect of one call (C08, C09, C22); the gaps of a set cover the other points (C60); equality of the
  unions by canonicity (C52).
* C101: the two protocols are inductive relations whose steps are calls of the modelled functions with their results (`Agenda`, `Owners` in
  `Verif/Props/Bookings.lean`); invariants (bookings disjoint and equal to the contents; at most one identifier per point) by induction,
  from C30-C32.
* C102: derived `==` and `Hash` of `Interval` (`Verif/Equality.lean`); an interval with a point is determined by its points.
* C103: the loop is an inductive relation (`Drains`); existence by induction on the number of entries with the exact law of one call
  (C63), uniqueness because a call has one outcome. `cut` twice from the exact law C65.
* C104 (`Props/Widening.lean`, `Props/WideningZosdit.lean`): `Embeds` says what a wider point type is, `Widens` that keys keep their ends;
  for `NoditMap` the specification of every call is transported along the embedding (the specification determines state and result),
  `NoditSet` by the simulation of the inner map, `Gqdit` through C30-C33 and C72, `ZosditMap` by direct commutation of the model's functions.
* C105 (`Props/Mirror.lean`): `Flips` is an order-reversing bijection of point types, `Mirrors` says that keys swap their ends; the
  specification of every call is transported along it as for C104, `Gqdit` through C30-C34.
* C106 (`Props/Conservation.lean`): what a call put in and handed back is read off the call and its result; counting lemmas for one call of the
  reference machines of C20 and C62, summed over the history by induction.
* C107 (`Verif/GqditSets.lean`, `Props/GqditSetsProps.lean`): the functions of `Gqdit` over an interface of set operations; a map between two
  implementations of the interface that respects the operations commutes with every program (by the parametricity lemmas of C88);
  ascending sequences with the classes of their elements, and subsets of given elements, are instances.
* C108 (`Props/Agreement.lean`): every query is turned into a statement about the entries by the specifications of C03, C06-C08, C14-C17; the
  equivalences are then about lists of entries.
* C109 (`Props/Sizes.lean`): `Spec.pointCount` is the cardinality of the set of points, `Spec.total` the sum over a list; one call by
  counting disjoint unions of sets of points, histories by summing C106 over all points.
* C110 (`Props/AgreementZosdit.lean`): from the exact descriptions of the calls (C38, C41, C44, C51, C63-C65); contiguity by the order of the
  sequence.
* C111 (`Props/AgreementGqdit.lean`): a small structure `Runs` (the list has exactly the maximal runs meeting the query, and covers the query's
  points with the property) from C31, C32 and the coverage lemma of C72; "changes nothing" by canonicity (C33).
* C112 (`Props/Splitting.lean`): `TwoParts` relates the three intervals by their points only; the rest follows from the exact descriptions of the
  calls, for `remove_overlapping` with an argument about the order of the entries.
* C113 (`Props/Repeating.lean`): `Op.again` says what the second of two identical calls returns; `specOp_again` proves it on the reference
  machine of C20, and the machine's determinism carries it to the model. Gqdit: two histories with equal identifiers per point evaluate to the
  same value (C33). ZosditMap: from the exact descriptions of `insert_strict_back` and `cut` (C62, C65).
* C114 (`Props/FirstCome.lean`): induction over the sequence of calls with C06 (`insert_exact` for ZosditMap); `fillLoop` (client code) by C59 and C15.
* C115 (`Props/Monotone.lean`): the reference machine is monotone in the set of entries for the named calls (case by case), lifted to histories by induction; gaps by maximality; `C115_hindered_inserts_differ` shows why the other inserts are left out.
* C116 (`Props/CrashFuel.lean`, `Props/CrashGrain.lean`): both are proved compositionally for the programs of `Crash.lean`, `CrashSet.lean`, `CrashGq.lean`, `CrashZ.lean`: `Fuelled`/`Starts` (how often user code runs) and `Grain` (a Hoare logic whose ghost state is what user code last saw) have a rule for each construct of the language, and the loops go by induction. It also shows that these models really interrupt: an instance of them in which user code never panics, or in which a mark between two changes is missing, is refuted.
* C117 (`Props/Rollback.lean`): induction on the sequence with the relation `Frag` (same value at every point, entries parts of the old ones) between the map being rolled back and the one before, one case per call from the reference machine; exact version with equality; `NoditSet` by translating calls and results; irreversibility from two maps a merge makes equal.
* C118 (`Props/Divided.lean`): both maps hold the same partial function (C21); one case per call of the reference machine shows that results determined by it agree; induction on the sequence; `NoditSet` through the map with only one value; concrete pairs for the calls left out.
* C119 (`Props/Alloc.lean`): the client is a small program over the model's `gaps_trimmed`, `width`, `insert_strict` and `cut`; C15 says a gap is a maximal free run in `q`, so a block that fits lies in one gap, and gaps ascend; histories by the invariant that the blocks held are a permutation of the entries; C08 for releasing.
* C120 (`Props/RangeUpdate.lean`): the client is a program over the model's `gaps_trimmed`, `cut` and `insert_strict`; C15 and C08 say that gaps and pieces partition the range, so all inserts succeed; point-wise by cases on the old value; histories and sums by induction.
* C121 (`Props/Compact.lean`): entries are maximal runs (C52, C53), so sending each to an entry of the other map that contains its first point is injective; the rebuilding loop by induction with C11 (C100 for sets).
* C122 (`Props/Nearest.lean`): the first item of an ascending list starts at the least of all its points; with C15, C05 and C04.
* C123 (`Props/Exchange.lean`): what one cut returned lies in `q`, what the other left lies outside, so all inserts succeed (C06, C08); point-wise by cases; for ranges that divide no entry, cut returns whole entries.
* C124 (`Props/Replicas.lean`): invariant over the schedule relating each replica to the set of inserts it has heard of; equality from C52 (sets) and from the canonical form of a `Gqdit` (`Gqdit.Rep.eq`, as in C33).
* C125 (`Props/Durable.lean`): the client as a machine over snapshot, log and memory; a relation kept by the calls and by writing and reading back (equality, from C46 and C49; for `ZosditMap` equality of the value stores) gives the result for every history; with `cut` a concrete counterexample.
* C126 (`Props/Walk.lean`): induction on the number of lookups; every position reached is the start of an entry or of a maximal gap, and the number of entries ahead bounds the lookups left; ascending lists with the same members are equal.
* C127 (`Props/Join.lean`): the pieces inserted never overlap (C24, C05), so all inserts succeed; the start of a piece is the start of an entry of one of the maps, which bounds their number.
* C128 (`Props/Shift.lean`): shifted entries keep their order, so `from_iter_strict` gives them back (C58); overflow case by case.
* C129 (`Props/Timeline.lean`): the appends on the reference machine of C62; on a gapless map the two situations in which lookup (C63)
  and cut (C65) miss something cannot arise, by induction along the entries.
* C130 (`Props/Patch.lean`): the clients are programs over `get_key_value_at_point`, `remove_overlapping` and `insert_strict`; C03, C06, C07 say when
  they succeed, and maps with the same entries are equal.
* C131 (`Props/Splice.lean`): the clients are programs over `cut`, `iu`/`ie`/`ii`, `translate` and `insert_strict`; C08 gives the cut parts, a lemma on
  lists moved by a constant (C128) their places, and the parts cannot meet what is left because the cut emptied the points from `p` on.
* C132 (`Props/Routing.lean`): C100 (the last painted interval wins) and a sorting lemma: in the sorted list no interval lies inside a later one.
* C133 (`Props/Rooms.lean`): an invariant over the meetings placed so far (C30 gives the identifiers at a point): a meeting that shares a point with the next one
  contains its start. Room `r` is only taken when rooms `0 .. r` all have a meeting at one point, and those need different rooms in every assignment.
* C134 (`Props/Reach.lean`): one direction is the invariants (C01, C22, C36, C42, C52, C33); for the other the entries are inserted one by one into a new
  collection, and the result is the given one because the invariants leave only one collection with these entries. For `ZosditMap` the surplus of the length is made first, by inserting and removing one value.
* C135 (`Props/Reassembly.lean`): a transition system with the receiver's set, all fragments sent (delivering any of them again is allowed, never delivering one is losing it)
  and all reports; an invariant over all schedules: every point of the message has arrived or is asked for by every report made so far. C52 for the acknowledgement and the equality.
* C136 (`Props/Locks.lean`): a lock manager whose specification is a pair of functions on points (who writes, who reads); simulation for every sequence of requests,
  from C05, C09, C120 and the representation of `Gqdit` used for C71; exclusion, keeping and releasing by induction over the requests.
* C137 (`Props/Groups.lean`): belonging together is the reflexive transitive closure of overlapping (touching); an invariant over the inserts (each inserted interval
  lies in an entry, any two in the same entry are linked, each point of an entry is in an inserted interval, no two entries are near each other), from C12 and C13.
* C138 (`Props/Painter.lean`): with the layers numbered both ways leave maps in which different entries of equal value are separated by a point, and the same
  value at every point, so they are equal (the argument of C53); values without numbers by the parametricity of C88. The visible value from C09 and C15, the bound from C81.
* C139 (`Props/Paging.lean`): a page is the beginning of the list of entries not yet passed by the cursor (from C05); reading it leaves the rest of that list
  (`page_eq`). Induction on the pages with the invariant that everything delivered ends before the cursor.
* C140 (`Props/Replay.lean`): invariant `Good`: at most `n` intervals, coalesced (C52), covering exactly the accepted numbers from the limit on; the limit is the
  least point or has `n` accepted numbers at or above it. Kept by one message (C22); induction on the messages.
* C141 (`Props/Toggle.lean`): the gaps are the points of the interval not in the set (C22), so inserting them after the cut is never refused; coalesced throughout (C52).
  Induction on the list with the number of intervals around a point modulo two; equality because the maximal runs determine the set.
* C142 (`Props/Greedy.lean`): every request contains the end of an accepted interval that does not end later (induction with C06), and disjoint intervals need as
  many points to meet them; both optimality claims follow.
* C143 (`Props/Cache.lean`): one induction over the events with C15 (gaps), C59 (filling them), C05 and C08 (cut); the specification `Served` speaks of the set of
  cached points and the table only.
* C144 (`Props/Txn.lean`): a simulation relation between the store with its overlays and a stack of functions (full copies), one step per event with
  C08, C09 and the painting lemma of C138; the exactness of rollback by induction over balanced sequences.
* C145 (`Props/Busiest.lean`): the identifiers at a point are as many as the intervals there (fresh numbers), and the latest start among the intervals at a
  point is in all of them.
* C146 (`Props/Shards.lean`): invariant: each shard shows the whole restricted to its territory; C24 (intersection), C08 and C09 for each write.
* C147 (`Props/Tiles.lean`): C05, C15 and C24 give disjoint pieces with exactly the points of the range; sorting by starts makes disjoint intervals ascending.
* C148 (`Props/Kth.lean`): induction over the number within an entry (`up` adds one point) and over the entries; sets of points counted with `Set.encard`.
* C149 (`Props/Slots.lean`): exchange argument by induction over the specification's run (C62): what is taken ends no later than the first of any compatible selection.
* C150 (`Props/RoomsDepth.lean`): from C133 (collision-free, rooms numbered without holes) and C145 (greatest depth), by counting at a deepest point.
* C151 (`Props/KthFree.lean`): C148 for the list of the gaps, whose points C15 gives.

No property is "not applicable". Ten are partial (C27, C35, C39, C40, C42, C43, C47, C48, C49, C94): they are false of the code, see
section 4 and `Props/FullStatements.lean`; exact laws for what the code does instead are C63-C66, C71, C72, C96 and the theorems beside
the counterexamples.

## 4. Where the code departs from its documentation

Found by the proofs; each is a theorem about a reachable state (names in brackets).

1. `ZosditMap::remove_last_value_at_point` does not decrement the length: `len` and `is_empty` are stale afterwards
   (`C42_len_wrong_after_remove`; exact law C64).
2. `get_last_value_at_point`/`remove_last_value_at_point` miss the last point of an entry followed by a gap and another
   entry (`C40_misses_end_points`; exact law C63).
3. `ZosditMap::cut` does nothing if an entry lies wholly before the cut and none straddles its start, e.g. cutting
   `[5,40]` from `[0,2] [6,8] [30,30]` (`C43_cut_misses`; exact law C65).
4. After a `cut` a `ZosditMap` can hold two stores with the same point interval; where the next value for it goes depends
   on the shape of the B-tree (`C39_not_at_the_back`; the model's `pick`).
5. `insert_strict_back` into an existing store drops the key passed and keeps the old one (visible if the key type
   carries data) (C66).
6. `Gqdit::append` leaves `other` without any entry, so it no longer covers anything: later inserts into it are lost
   (`C35_appended_other_is_broken`).
7. Deserialising a `NoditMap`, `NoditSet` or `ZosditMap` with an invalid interval panics instead of returning an error
   (`C47_panics`), and a deserialised `Gqdit` need not cover all points (`C49_not_covering`).
8. `translate` in release builds wraps around and can return an invalid `Interval` (C27).
9. A serialised then deserialised `ZosditMap` can differ from the original by `==` (`C48_not_equal`).
10. When a merging insert absorbs nothing beyond the inserted interval's ends, the stored key is the caller's, otherwise
    it is rebuilt by `From<Interval>` (C10-C13): extra data in key types is dropped.
11. The README's `Reservation` example violates the interval contract: after `cut(q)` the first point of `q` can stay
    reserved, and `contains_interval` is false on touching reservations (C70).
12. `InclusiveInterval::overlaps` does not check validity although the crate documents that invalid intervals panic: on
    an invalid argument it answers or hits an `unreachable!()`, depending on the values (C75). Without overflow checks
    `width` of a wide signed interval is negative (C76).
13. A panic of user code in the middle of `cut` or `insert_overwrite` can lose parts of an entry *outside* the interval
    given (`C78_point_outside_the_cut_can_be_lost`), but never breaks the map's invariant (C78).
14. A panic of user code inside a `Gqdit` call can leave a hole in the inner map: the points of the hole are reported as
    neither gap nor identified, and everything inserted there later is silently lost (`C79_hole_swallows_inserts`).
15. A panic of user code inside `ZosditMap::cut` leaves `len()` too large for good; a lost entry can even be counted twice,
    because `len` is increased before `K::from` and `clone` run (`C80_counted_twice`).
16. `sorted_config` labels a partial overlap with the left interval first as `Swallowed` (`C82_sorted_config_mislabels`); no
    caller reads the label.
17. `gaps_untrimmed`, `gaps_trimmed` and `contains_interval` convert the (invalid) interval between two touching entries with
    `K::from` and only then test it, so a key type whose `From` normalises its argument gets gaps that are not there
    (`C87_gaps_need_invalid_to_stay_invalid`).
18. `==` on `ZosditMap`s compares the stale length (finding 1) and the division into stores: maps with the same entries can be
    unequal (`C89_zosdit_map_equal_entries_unequal`, `C48_not_equal`).
19. A deserialised `Interval` can be invalid, which the constructors prevent (`C90_not_validated`).
20. Users of separate regions of one `ZosditMap` disturb each other: an entry anywhere above makes a lookup at the last point of an
    entry miss, an entry anywhere below makes `cut` do nothing (`C94_far_entry_hides_lookup`, `C94_far_entry_stops_cut`; for
    `NoditMap` non-interference holds, C93).
21. `contains_point` and `get_at_point` compute the gap around an uncovered point only to throw it away, and so can panic for point
    types whose `up`/`down` is `None` too early, although the answer does not depend on it (`C95_neighbours_matter`).
22. Finding 1 and a finite `usize` together: `usize::MAX` rounds of inserting and removing one value (feasible with 16 and 32 bits) and
    one more insert overflow the counter of a map with one entry: a panic in debug builds, `is_empty()` in release builds
    (`C96_pushing_and_popping`).
23. `Interval::from` of a `RangeInclusive` that has been iterated to its end does not panic although the range is empty: it returns
    the last point the range yielded (`C25_iterated_range`), because the conversion reads `start()` and `end()` only, which the
    standard library leaves unspecified after exhaustion.
24. With identifiers that compare equal without being identical, `Gqdit::insert` may replace the identifiers reported at points outside
    of the given interval by equal ones (`C107_insert_replaces_equal_identifiers_elsewhere`). Up to `Eq` nothing changes (C107).

Findings 1-4 need only local repairs: with the cursor moved back unless its key contains the point, `self.len -= 1` on removal,
`cut` starting at the first store that ends at or after the start of the interval, and inserts going to the last of several matching
stores, every history gives the documented results, entries and length (`Repair_zosdit_documented`, `Repair_zosdit_lookup`,
`Repair_zosdit_hint` in `Props/Repairs.lean`), and clients on disjoint regions do not disturb each other (`Repair_zosdit_clients`). This is a statement about changed code and no claim of `properties.jsonl`.
Likewise findings 6 and 7 (`Props/RepairsIO.lean`): with a validity check on each interval read no input makes deserialisation panic and
every input has the expected outcome (`Repair_deserialize_map`, `_set`, `_zosdit`); with what was read inserted into a new `Gqdit`, and
`other` set to a new one by `append`, every program with several `Gqdit`s has the expected contents and gaps (`Repair_gqdit_programs`).

## 5. Trusted base

Lean's kernel; axioms at most `propext`, `Classical.choice`, `Quot.sound` (per theorem in `AXIOMS.md`; checked by `vcheck`); the
translation from Rust to Lean by reading; the contracts listed in section 1 for btree_monstrousity, std,
itertools, smallvec and serde; lawfulness of user supplied point/interval types.
