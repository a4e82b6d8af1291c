# Formal model of `advanced_collections` in Lean 4

The crate has four containers: `CircularBuffer`, `Interval` (with `LowerBound`/`UpperBound`),
`Counter` and `DisjointSet`. All four are modelled function by function and every property in
`properties.jsonl` is stated as a theorem about that model.

## Trusted base

* **Lean 4.33.0's kernel**, and Mathlib for definitions used in statements (`LinearOrder`,
  `DenselyOrdered`, ordered groups/rings/fields, `List.Perm`, `Nat.log2`, `Nat.find`, `Nat.iterate`).
* **Axioms.** Every property theorem was checked with `#print axioms`; the only ones that occur are
  `propext`, `Classical.choice` and `Quot.sound`. There are no axioms of our own, no `sorry`, no
  `native_decide`, no `bv_decide`.
* **The models match the code.** Each definition in a `Model.lean` cites the file and lines it follows; the
  match itself was checked by reading, line by line, because the crate cannot be built here. Further evidence: all
  unit tests and documentation examples of the crate, written as programs over the models (`*/CrateTests.lean`), pass.
  These are tests of the models, not proofs, and no property rests on them.
* **The specifications say what is meant.** They are in `*/Spec.lean` and in the theorem statements.
* **The Rust standard library** behaves as documented: `Vec`, boxed slices, slice `split_at`,
  `Chain` of slice iterators, `Iterator::eq/partial_cmp/cmp`, `mem::swap`/`replace`,
  `HashMap` (contract in `Map/HashMap.lean`), `sort_unstable_by_key` (any sorted permutation; for C97, any
  sequence of comparisons of keys). C97 counts searches of the hash table; that one search takes constant time is the
  documented behaviour of `HashMap` and not proved.
* **User types are lawful**: `Eq`/`Hash` agree and `Eq` is equality, `Ord` is a linear order, `Clone` returns an equal value.
  Exceptions, where the theorem takes an arbitrary user function: the comparison functions of C15,
  the arithmetic of C22, C40, C42, destructors (C01, C08, C09), iterators that panic; C89, C90, C91, where
  values that compare equal need not be equal; C94, C95, where `Eq` and `Hash` answer anything; and C96, where every comparison of values does. For C94 and C95 the standard
  table is assumed not to lose entries then: a lookup finds some stored entry or none, iteration shows all entries.

### What is modelled

| file | modelled |
|---|---|
| `circular_buffer/circular.rs`, `iter.rs` | every public function and trait impl |
| `interval/bounds.rs`, `interval.rs`, `interval_cmp.rs`, `interval_math.rs` | every public function and trait impl |
| `counter/counter.rs` | every public function and trait impl; access through `Deref` is the map itself |
| `counter/fast_counter.rs`, `disjoint_set/fast_disjoint_set.rs` | type aliases with another hasher; same model |
| `disjoint_set/disjoint_set.rs` | every public function and trait impl |
| `lib.rs`, `mod.rs` | re-exports only, nothing to model |

### What is not modelled

* Running out of memory where it stops the process (the default of the allocator). Refused requests that panic are
  modelled: explicit ones in the models of the circular buffer and the disjoint set, all requests of counters and
  disjoint sets in `*/ModelMem.lean` (C99, C100), those of an iteration over the groups in `DS/ModelMemIter.lean`
  (C113), those of conversions from maps and of `most_common` in `Cnt/ModelMemOut.lean` (C122).
* Panics of `Hash::hash` on keys already stored, while a table is rehashed, outside of two models: a counter with
  removals may rehash in place, where a panic can lose entries (`Cnt/ModelRehash.lean`, C103); a disjoint set never
  does, and loses nothing (`DS/ModelRehash.lean`, C131). (A panicking destructor of a duplicate key is the
  case "key panics" of `DS/Model.lean`: the map is unchanged.)
* Aliasing rules beyond disjointness. The references of `iter_mut` are positions in the backing slice, and they are proved
  to lead to different elements at every moment (C133); provenance and the lifetimes of borrows are left to the compiler.

## Layout (`lean/Verif/`)

| module | content |
|---|---|
| `Rust/Base.lean` | faults (panics, undefined behaviour, divergence), the state-and-panic monad `M`, build configuration `Cfg`, `usize` arithmetic |
| `CB/Model.lean` | `CircularBuffer`, `Drain`, `IntoIter`, `Iter` |
| `CB/Spec.lean` | the bounded deque specification (a capacity and a list) |
| `CB/{Lemmas,Sim,Sim2,Sim3,Refine,Reach,Ledger,Misc}.lean` | representation invariant, one simulation lemma per method, induction over calls, value ledger |
| `CB/Props.lean`, `CB/PropsHuge.lean` | property theorems C01–C21, C67; where exactly C21 stops |
| `CB/{Place,PropsPlace}.lean`, `CB/{Laws,PropsLaws}.lean` | which slots a call writes, C74 and C75; laws of the ends, C77 and C81 |
| `CB/PropsDebug.lean`, `CB/PropsUninit.lean`, `CB/PropsConstruct.lean` | C83, C84, C85 |
| `Itv/Model.lean`, `Itv/Spec.lean`, `Itv/{Lemmas,Arith}.lean` | bounds and intervals, point-set vocabulary, helper lemmas |
| `Itv/Props.lean`, `Itv/PropsArith.lean` | C22–C35, C43, C44 and C36–C42 |
| `Itv/Cut.lean`, `Itv/PropsAlgebra.lean` | bounds as cuts of the line; C70–C72 and the read-back half of C44 |
| `Itv/PropsOrder.lean`, `Itv/PropsContract.lean` | C73; exactly where C32 fails |
| `Itv/{Collect,PropsCollect}.lean` | C92 |
| `Itv/{SpecFold,LemmasFold,PropsFold}.lean` | intersection and span of a collection, C104 |
| `Itv/{SpecTable,LemmasTable,PropsTable}.lean` | binary search in a sorted table of intervals, C107 |
| `Itv/{SpecSchedule,LemmasSchedule,PropsSchedule}.lean` | clients that choose and distribute intervals, C114 |
| `Itv/{LemmasPrecede,PropsPrecede}.lean` | interval order, elimination order, chords, sorting, C134 |
| `Itv/{SpecCover,LemmasCover,PropsCover}.lean` | a client that counts intervals by two binary searches, C135 |
| `Itv/PropsChain.lean` | C93 |
| `Map/HashMap.lean` | the `HashMap` contract used by the two hash based containers |
| `Map/KeyMap.lean` | the same contract with keys that compare equal without being the same |
| `Cnt/{Model,Spec,Lemmas,Props}.lean` | `Counter`, C45–C55 |
| `Cnt/PropsAlgebra.lean` | C76 |
| `Cnt/{SpecMultiset,LemmasMultiset,PropsMultiset}.lean` | multiset operations, the best m entries, C108, C109 |
| `Cnt/{SpecShards,PropsShards}.lean` | counting in parts and adding up, C111 |
| `Map/Growth.lean`, `Cnt/PropsGrowth.lean`, `DS/PropsGrowth.lean` | amortised cost of growing, C112 |
| `DS/{ModelMemIter,LemmasMemIter,PropsMemIter}.lean` | the memory of the local map of `build_sets`, C113 |
| `Cnt/PropsPanic.lean` | C79 |
| `Cnt/{Program,PropsProgram}.lean` | C80 |
| `Cnt/PropsWrap.lean` | C88 |
| `Cnt/{ModelKey,SimKey,PropsKey}.lean` | `Counter` with items compared by a key, C90 |
| `Itv/PropsHash.lean` | C82 |
| `Itv/{ModelCmp,Cmp,PropsCmp}.lean` | the in-place methods with a comparison that panics, C86 and C42 |
| `Itv/{ModelKey,PropsKey}.lean` | the set operations with values compared by a key, C89 |
| `DS/{Model,Spec,Forest,Link,Lemmas,Sim,Props}.lean` | `DisjointSet`, C56–C66 |
| `DS/{Deep,PropsDeep}.lean` | C59: histories that need all the stack frames the bound allows |
| `DS/{Ack,Counted,Cost,Flat,PropsCost}.lean` | Ackermann's function, the model with a counter of root search calls, Tarjan's potential argument, C68 and C69 |
| `DS/{Local,PropsLocal}.lean` | C78 |
| `DS/{SpecForest,LemmasForest,PropsForest}.lean` | a client picking a spanning forest, C105 |
| `DS/{SpecParity,LemmasParity,PropsParity}.lean` | a client that solves equations between two-valued unknowns, C110 |
| `DS/{Ghost,PropsGhost}.lean` | C66: what a panicking `clear` leaves behind |
| `DS/{Alike,PropsAlike}.lean` | C87 |
| `DS/{ModelKey,SimKey,PropsKey}.lean` | `DisjointSet` with elements compared by a key, C91 |
| `DS/{ModelWild,SimWild,PropsWild}.lean` | `DisjointSet` with lookups that find anything, C94 |
| `Cnt/{ModelWild,SimWild,PropsWild}.lean` | `Counter` with lookups that find anything, C95 |
| `Itv/{ModelWild,SimWild,PropsWild}.lean` | `Interval` with comparisons that answer anything, C96 |
| `CB/{ModelCost,SpecCost,LemmasCost,PropsCost}.lean`, `CB/{SpecPaid,LemmasPaid,PropsPaid}.lean` | `CircularBuffer` with counters of steps and requests for memory, C101 |
| `Cnt/{ModelRehash,SpecRehash,LemmasRehash,PropsRehash}.lean` | `Counter` whose table loses entries when `Hash` panics, C103 |
| `Cnt/{ModelCost,SpecCost,LemmasCost,PropsCost}.lean` | `Counter` with counters of table searches, clones and comparisons, C97 |
| `Rust/Fmt.lean`, `{Itv,Cnt,DS}/{ModelDebug,PropsDebug}.lean` | texts of derived `Debug`, C98 |
| `Rust/FmtPretty.lean`, `{Itv,Cnt,DS}/{ModelPretty,PropsPretty}.lean` | the same with `{:#?}`, C102 |
| `Rust/FmtFlags.lean`, `{Itv,Cnt,DS}/{ModelFlags,PropsFlags}.lean` | the same with all formatting flags, C132 |
| `Map/Memory.lean` | contract of capacities, any allocator |
| `{Cnt,DS}/{ModelMem,SpecMem,LemmasMem,PropsMem}.lean`, `DS/{SpecSpare,LemmasSpare,PropsSpare}.lean` | `Counter` and `DisjointSet` with capacities and refused requests, C99, C100 |
| `Client/{SpecWindow,LemmasWindow,PropsWindow}.lean` | a client of buffer, counter and interval, C106 |
| `Client/{SpecCluster,LemmasCluster,PropsCluster}.lean` | a client of interval and disjoint set, C115 |
| `Client/{SpecMax,LemmasMax,PropsMax}.lean` | a client that uses both ends of a circular buffer, C116 |
| `DS/{Sharp,PropsSharp}.lean` | cost of one call and worst case histories, C117 |
| `Itv/{SpecSet,LemmasSet,PropsSet}.lean` | client: a set of values kept as intervals, C118 |
| `Client/{SpecAnagram,PropsAnagram}.lean` | client: search for rearrangements of a pattern, C119 |
| `Client/{SpecBfs,LemmasBfs,PropsBfs}.lean` | client: breadth first search with the buffer as queue, C120 |
| `Client/{SpecRate,LemmasRate,PropsRate}.lean` | client: a rate limiter, C136 |
| `DS/{SpecEquality,LemmasEquality,PropsEquality}.lean` | client: equations and inequations, C137 |
| `Client/{SpecUndo,LemmasUndo,PropsUndo}.lean` | client: undo and redo, C138 |
| `Cnt/{SpecDistance,LemmasDistance,PropsDistance}.lean` | client: distance of two sequences, C139 |
| `DS/{SpecAutomata,LemmasAutomata,PropsAutomata}.lean` | client: Hopcroft and Karp's algorithm, C140 |
| `Client/{SpecBroadcast,LemmasBroadcast,PropsBroadcast}.lean` | client: readers that may fall behind, C141 |
| `Client/{SpecRobin,LemmasRobin,PropsRobin}.lean` | client: turns in a circle, C142 |
| `DS/{SpecCuts,LemmasCuts,PropsCuts}.lean` | client: connections that are cut, answered backwards, C143 |
| `Client/{SpecRecent,LemmasRecent,PropsRecent}.lean` | client: the keys used most recently, C144 |
| `Itv/{SpecNarrow,LemmasNarrow,PropsNarrow}.lean` | client: narrowing what unknowns may be, C145 |
| `Cnt/{SpecStock,LemmasStock,PropsStock}.lean` | client: stock and orders filled completely or not at all, C146 |
| `Cnt/{SpecFrequent,LemmasFrequent,PropsFrequent}.lean` | client: frequent items with few keys, C147 |
| `Client/{SpecOrder,LemmasOrder,PropsOrder}.lean` | client: tasks in an order in which they can be done, C148 |
| `Client/{SpecRadix,LemmasRadix,PropsRadix}.lean` | client: radix sort with bins, C149 |
| `DS/{SpecCluster,LemmasCluster,PropsCluster}.lean` | client: groups that are far apart, C150 |
| `DS/{SpecCongruence,LemmasCongruence,PropsCongruence}.lean` | client: equations between terms, C151 |
| `Client/{SpecMatch,LemmasMatch,PropsMatch}.lean` | client: stable matching with a line, C152 |
| `Client/{SpecLocks,LemmasLocks,PropsLocks}.lean` | client: ranges locked with intervals and a line, C153 |
| `Client/{SpecOnce,LemmasOnce,PropsOnce}.lean` | client: first item that has come only once, C154 |
| `Client/{SpecDelay,LemmasDelay,PropsDelay}.lean` | client: delay lines and running sums, C155 |
| `DS/{SpecBottleneck,PropsBottleneck}.lean` | client: when two elements become connected, C121 |
| `Cnt/{ModelMemOut,PropsMemOut}.lean` | memory of conversions from maps and of `most_common`, C122 |
| `CB/{SpecQueue,PropsQueue}.lean` | a buffer as a queue between producers and consumers, C123 |
| `CB/{ModelIter,SpecIter,PropsIter}.lean` | methods of the iterators that std provides, C124 |
| `CB/{ModelSlices,LemmasSlices,PropsSlices}.lean` | client code that writes through mutable slices, C125 |
| `CB/{ModelRefs,SpecRefs,LemmasRefs,PropsRefs}.lean` | client code that keeps the references of `iter_mut`, C133 |
| `CB/{SpecWorld,LemmasWorld,PropsWorld}.lean` | programs with many buffers, C126 |
| `Itv/{ModelClamp,PropsClamp}.lean` | `clamp` of bounds, C127 |
| `CB/{SpecTurn,PropsTurn}.lean` | client: in-place editing by rotation, C128 |
| `CB/{ModelOrd,PropsOrd}.lean` | provided operators, `max`, `min`, `clamp`, C129 |
| `DS/{SpecLattice,PropsLattice}.lean` | a client that joins and meets two partitions, C130 |
| `DS/{ModelRehash,PropsRehash}.lean` | `DisjointSet` whose table makes room with a panicking `Hash`, C131 |
| `Rust/Assert.lean`, `{CB,Itv,Cnt,DS}/CrateTests.lean` | the crate's own tests and documentation examples, replayed on the models |

## Modelling decisions

* **Panics keep the state.** A `&mut self` method is a function `σ → Except Fault α × σ`: when it
  panics, the state at the panic point is still there, so what `catch_unwind` could observe is part of
  the model.
* **usize is bounded.** `Cfg` fixes the pointer width (16 to 64 bits), whether overflow checks are on
  (panic) or off (wrap-around), and whether debug assertions are on. All theorems quantify over `Cfg`.
* **Uninitialised memory is explicit.** A slot of the circular buffer is `Option α`; `none` is an
  uninitialised slot. Reading one is the fault `ub`, not a default value.
* **`mem::uninitialized::<T>()`** gives a slot without a value, or the fault `uninitRefused` if the toolchain
  refuses the type. Which it does is a parameter of the element type; C84 shows that refused types have no
  buffers. The theorems that construct a buffer assume that the type is not refused.
* **Drops are explicit.** Every drop of an element is appended to a log. A predicate says which values
  have a panicking destructor; unwinding drops owned locals, a second panic while unwinding aborts.
* **Loops and recursion.** `while let` loops and the recursive root search take fuel; running out is a
  fault. The theorems show the fault does not occur, so the fuel is a termination (and stack depth)
  proof obligation, not an assumption.
* **HashMap** is an association list with unique keys. Whenever the code iterates over a map, the
  iteration order is an argument, and the theorems hold for every permutation of the entries.
* **sort_unstable_by_key** is any function that returns a sorted permutation.
* `T: Ord` is a `LinearOrder`: values that compare equal are the same, except in `Itv/ModelKey.lean` (C89), where they
  may differ. Keys of a `HashMap` are compared by equality, except in `Cnt/ModelKey.lean` (C90) and
  `DS/ModelKey.lean` (C91); there a map keeps the key it has when an equal one is inserted, as `std` documents. Arithmetic on `T` is a parameter that may panic.

## How each property is proved

| id | how |
|---|---|
| C01 | refinement: representation relation `Repr buffer deque`, one simulation lemma per method, induction over the list of calls |
| C02, C03, C06, C13, C20 | corollaries of the simulation plus list lemmas on `takeLast`/`take` |
| C04, C05, C07, C10–C12, C14, C17–C19 | simulation lemmas; representation invariant in every reachable state |
| C08 | permutation invariant over histories: inputs ~ outputs ++ dropped ++ content |
| C09 | same simulation with the panicking-destructor predicate arbitrary |
| C15 | model of `Iterator::eq/partial_cmp/cmp`; contents equal lexicographic comparison |
| C16 | false of the code for non-`Copy` elements: proved negation (`clone` reads a spare slot unless a `T::clone` panics first), partial for bitwise clone |
| C67 | false of the code: witness; partial says exactly which elements are dropped and which leak |
| C21 | false of the code with overflow checks for every capacity above `isize::MAX` (`c21_exact`: one element in front of the first slot, then pushes until the sum in `len` overflows), and for `usize::MAX`: witnesses; partial for everything else. Without overflow checks the wrapped index is that of another item, which a one-valued type cannot show: `Rep` allows such capacities, `internalIndex_some` |
| C22 | inductive set of obtainable intervals, invariant by induction |
| C23–C31, C33–C35 | case analysis over a linear order, with `DenselyOrdered` for converses; C24, C27, C35 are false of the code for empty intervals / equal bounds: negation with witness plus partial; the partials of C24 and C27 are exact |
| C32 | false of the code: witness; partial says what does hold, and exactly for which pairs the contract is broken (`c32_exact_partial`, `c32_value_exact_partial`): case analysis over a linear order |
| C36–C40 | monotone-map lemma for `fix_after_modification`, instantiated for ordered groups, rings, fields and truncating division; C37 (zero) and C38 (integers) have witnesses of failure; the partial of C38 gives the exact points |
| C41 | fixed-width integers, checked and wrapping |
| C42 | false of the code: witness of an ill-formed interval after a caught panic of the operator or of the comparison; partial says what is left and when it is well formed |
| C43, C44 | dense order argument; list-of-characters argument, and a separately written reader of the documented notation |
| C73 | case analysis over a linear order, induction over the list |
| C74 | the relation "this call overwrites at most these slots, with these values" per method, composed over histories; the address of an element is its slot |
| C75 | false of the code: witness; partial says that nothing is ever dropped twice and nothing is lost on success. `fromIterLog` is `from_iter` with the drop log |
| C76 | from the exact description of sums and differences in C45–C55 |
| C77 | refinement, then list lemmas; the mirror image of a history is proved on the deque specification |
| C78 | description of `in_union` in C56 plus: a pair added to a generated equivalence joins two classes |
| C79 | the loops of `+=` and `-=` run on a prefix of an iteration order and then panic; induction over the prefix |
| C80 | relational semantics of programs, each iteration picks any order; per line determinism up to `==`, induction over the program |
| C81 | refinement: both runs equal the run of the same deque |
| C84 | case analysis of the constructors; that the type is not refused is part of the representation invariant |
| C85 | false of the code: for every sized type with a destructor the vector of `isize::MAX / size` items is a witness; partial for the rest. `fromVecLog` is `From<Vec>` with the drop log |
| C86 | case analysis over the comparison that panics: a state monad with the number of comparisons that still succeed |
| C87 | congruence: the abstract answers depend only on the set of elements and the connectivity relation, both recovered from `in_union` |
| C88 | induction over how the counter was made, carrying the unbounded counts along; C50's stored zeros are exactly the positive multiples of the number of values of `usize` |
| C89 | mapping all bounds to their keys commutes with each method; the choice on a tie by case analysis of `Ord::min`, `Ord::max` and the comparisons before the swaps |
| C90 | mapping stored items to their keys commutes with each method; the stored item by induction over the loops |
| C91 | mapping elements to their keys commutes with each call, so C56 applies to the history of keys; the stored elements by an invariant over histories; the groups of an iteration are a permutation of the stored elements |
| C92 | merging a pair keeps the set of cuts (bounds as positions on the line) that are covered, and which of them are linked; a collection without mergeable pairs is determined by both; induction over steps, and over the list for the single pass |
| C93 | case split over the order of the two new bounds for one operator; for chains induction over the list, keeping the bounds as the smaller and the larger of two values that are followed separately; wrapping integers by a witness |
| C94 | replacing every stored value by its number turns the history into one of a disjoint set of numbers with a proper `Eq`, to which C56 to C60 apply; iteration is followed on pairs of value and number |
| C95 | the sum of all counts is followed through one addition, one subtraction, and by induction through loops and histories; exact with overflow checks, modulo the size of `usize` without; the conversion from a map is shown to lose counts |
| C96 | a small program logic over runs with an arbitrary oracle for comparisons: what a call leaves behind and how it may end, composed along the code; with a proper `cmp` each comparison is shown to return the answer of the usual model |
| C97 | partial, false for `most_common`: a sort that compares is a decision tree, its results on the `k!` orders of a counter with different counts differ, so some path has `log2 k!` questions; the other costs by induction over the loops, together with the erasure of the costs |
| C98 | a small theory of texts that can be told apart with something following them, closed under the builders of `std::fmt`; the derived impls are compositions of these |
| C99 | partial, false for the memory O(k): the allocator is an arbitrary function asked at every request; contents by erasing the memory, a refusal stops a loop after a first part of its items; capacities are monotone facts over one call, then over histories |
| C100 | partial, false for the memory O(n), and for a vector that is refused memory (witness: an invariant "nodes from here on have their parents behind them", kept by everything but `clear`, on which every search fails; the nodes before are a disjoint set of their own, which every call treats as if there was nothing behind it, so the old elements answer as they should); the rest by following each call with and without memory side by side |
| C101 | a judgement "does what the model does, in at most k steps, without a request" with rules for sequencing and branches, applied to every method; for the loops with the representation invariant, so that the number of turns is the number of elements; erasure of the counters for arbitrary states; the lower bounds with a second judgement "with c steps in advance, pays for what it drops and for its result" |
| C102 | as C98; an indented block ends at the first line that does not begin with a space, so indentation can be undone also where texts contain line breaks |
| C103 | the loss is a filter with an arbitrary predicate at the end of a loop; each call is described key by key, histories by induction; the comparison with the history without losses because adding and subtracting are monotone |
| C104 | induction over the collection; each bound of the result is a bound of one of the intervals, so an empty result comes from two of them |
| C105 | the client's loop over the model is the greedy selection of the specification; Steinitz' exchange argument for connectedness; sums from the numbers of edges above each weight |
| C106 | the client is a program over the three models; invariant: the buffer represents the latest items and the counter counts them, one item at a time from the refinement theorem of the buffer and the key by key description of the counter; the range by induction over the window |
| C107 | induction over the width of the search window, with the invariant that all before it is below and all after it above the target; the comparisons are monotone along the table by C73, and complete by C24, C33 and C73 |
| C108 | a counter stores a function of multiplicities; `+` and `-` act on it pointwise (C47, C48), the rest is arithmetic at one key |
| C109 | the result is a descending permutation of the entries (C51); a sublist of a descending list has at most the sum of the prefix of its length; for frequent items, m greater counts before the item would exceed the total (C53) |
| C110 | invariant: the accepted equations have a solution, and the pairs united are those of the accepted equations; connected elements agree in every solution, and if two are not connected, flipping one component of a solution gives another in which they disagree |
| C111 | induction over the ways to carry out a plan: the result is right (C88) for the true totals if they fit or wrap, else it is the overflow; two results that are right for the same totals are equal |
| C112 | invariant: elements moved ≤ capacity + removals. Growing adds at least as many places as elements are moved; tidying up in place gives back more lost places than elements are moved |
| C113 | the loop with memory either runs as the loop without, or stops after a prefix of the searches; a search from an element is `in_union(x, x)`, whose second search finds a flat path. Two forests with the same roots and ranks in which every node points to its root are equal, so iterating again cannot tell. The bound is an invariant per vector, summed over the map |
| C114 | the taken interval has the smallest upper cut of all that are left, so what it excludes mutually intersects (c114_groups), and a choice takes at most one of each group; an interval that opens a new room intersects the last of every room, all of which reach its lower cut: as many mutually intersecting intervals as rooms |
| C115 | every interval lies in exactly one interval of the merged collection (C92); pairs that can be merged share a cut and hence that interval, and cuts linked through intervals give a chain of united pairs; the span of all intervals inside a merged interval reaches both its cuts |
| C116 | invariant of the rounds: positions increase, values decrease, every record is in the window, and every item of the window is covered by a record at or after it; increasing positions inside the window are at most w, so the push evicts nothing |
| C117 | upper bound: C69's count is the number of frames a search needs, which C59 bounds; reached: the forest after the worst case history is written down (binomial trees) and shown by induction to be what the model computes; its deepest element is k parents below the root |
| C118 | on cuts: two non-empty intervals can be merged iff they share a cut, so "no two can be merged" is disjointness of the cut segments; adding keeps it because the united segments are those of the list and the new interval, removing because pieces are parts; one form and minimality from C92's convexity and C43; examples show that the integers have several forms and that an empty interval in the list would be found to hold every value (C24) |
| C119 | induction over the text with the invariant of C106; equality of counters is equality of all counts, which is being a permutation; the subtraction of the length cannot underflow since equal counts mean equal lengths |
| C120 | invariant of breadth first search: the queue is sorted by distance and spans at most two levels, vertices taken out have all neighbours in the map; vertices taken out and queued are distinct, which bounds rounds and queue; at the end every edge lengthens the distance by at most one, so no walk is shorter |
| C121 | the edges before the one found do not connect, with it they do; sortedness turns prefixes into thresholds; for the forest, greedy choice on a prefix spans that prefix |
| C122 | the one request at the start covers all entries, so collecting asks for nothing more (induction on the entries) |
| C123 | every call removes a prefix of content and arrivals, all of it the same way (induction on the calls over the C01 deque); compared with an unbounded queue call by call |
| C124 | every method of `Chain` refines the method on the concatenated list (case analysis on the halves, induction on the calls); loops over `drain` by induction on the content |
| C125 | storing as many elements into the two regions gives the representation of the new content; that buffer is the one `iter_mut` would have produced, hence reachable |
| C126 | each event conserves values (C08 for calls, C09 for `append`, the drop loop for destructions), by counting occurrences over the list of buffers; induction on the events |
| C127 | inclusion of half-lines (C34) for the chosen bound, case analysis on the comparisons |
| C128 | induction over the rounds: after each one the buffer holds the elements not yet looked at followed by those kept; between pop and push there is always room |
| C129 | the comparison of the contents is the order of lists (induction); the dropped buffers by C08; collections by induction, keeping the best buffer and where it stood |
| C130 | the groups of the walked set are its partition; each loop by induction, relating the pairs united so far to the groups walked; the new state is reached by calls, so all other properties hold of it |
| C131 | invariant: the table has no places lost to removed keys, so a table without room is full and moves; call by call a simulation by the model of C56 with the call ended early; histories by induction |
| C132 | as C98 and C102, with numbers and truth values written with flags: a run of non-digits, the digits and the fill after them can be cut apart, and digits after zeros stand for the same number; `true` and `false` differ at the first letter, or right after one more fill character |
| C133 | simulation between memory with positions and separate boxes: the boxes are a permutation of all indices, so a store through one position changes one element |
| C134 | through the cuts of Itv/Cut.lean: `<` compares the end of one interval with the beginning of the other; the interval of a ring that ends first has two neighbours that intersect |
| C135 | each predicate compares the cut of a bound with a fixed cut, so it is monotone along the sorted bounds; what has ended has begun |
| C136 | the buffer holds the last `capacity` admitted times, so the test compares with the event `capacity` places before; the greedy choice stays ahead of any other, index by index |
| C137 | equal unknowns are those connected by the equations; numbering the components gives values that agree, and any values that agree are equal along a path of equations |
| C138 | the versions before and after the place are the contents of the two buffers; together they never exceed the capacity, so only an edit evicts |
| C139 | both differences store the counts of what one sequence has more; one step changes their sum by at most one, and removing the one and inserting the other takes as many steps |
| C140 | successors of united pairs are connected by united pairs and pairs on the stack, and pairs on the stack are reached by one word; every union joins two groups, which bounds the rounds |
| C141 | the buffer holds the last messages and a cursor is where the unseen ones begin; dropping from the buffer what was seen is the same as keeping the last of the unseen |
| C142 | the queue is the rest of this round followed by those that already had their turn; a pop leaves room for the push, so nothing is dropped |
| C143 | induction over the events: after the later ones have been replayed the partition is that of the graph at this event |
| C144 | the content is the end of the history without repetitions; taking one key out of it shortens it by at most one, so nothing that has fallen out is missed |
| C145 | a step is monotone and only narrows, so what one order leaves unchanged lies in what any other order leaves (C71, C72); where nothing changes intervals of linked unknowns are translates |
| C146 | induction on the trades with the list of what is left; the counter stores the counts of that list (`Stores`), C48 for the subtractions |
| C147 | induction on how the summary came about; it stores the counts of a part of the items, and every cut takes the same number from more than k keys (C48, C51) |
| C148 | invariant: the counter stores what the tasks not done release, and done or listed are exactly those not in it; a finite relation without cycles is well-founded |
| C149 | refinement of the bins to lists (`Rep`); a pass concatenates filters, which keeps the order of items with equal digits; induction on the passes |
| C150 | refinement (`Rel`); the united pairs connect all pairs of a prefix; either another grouping separates a united pair, or (pigeonhole) it separates what the program separates |
| C151 | refinement (`Rel`); every pass that changes something makes one group less, so the last pass changes nothing; the groups then are a world (quotient), and every union is right in every world |
| C152 | refinement of the line to a list (`Rep`); invariant `Courting`: whoever was refused was refused for a better one, and no stable matching has a refused pair |
| C153 | refinement of the line to a list (`Rep`); invariant `Guarded`: ranges held share no value and the first in the line intersects one of them; the claim about empty ranges is a consequence of C27 being false |
| C154 | refinement of line and counter to lists; invariant `Kept`: the line without duplicates holds, in their order, all items that have come once |
| C155 | refinement of the line to a list (`Rep`); induction on the signal: the line is a window of the zeros and the signal; not for floating point numbers |
| C83 | representation invariant; numerals are digit strings ended by a non-digit, so the text can be read back |
| C82 | prefix argument over the fed data, with C43 |
| C70–C72 | a bound is a cut of the line just before or after its value; containment, intersection, span, merging and strictly monotone operators become order, maximum, minimum and monotone maps of cuts |
| C45–C55 | map contract lemmas, induction over items and over any iteration order |
| C56–C66 | union-find invariant: parents in range, ranks strictly increase towards the root, class of a root of rank r has at least 2^r elements; abstraction to the generated equivalence; C66 is false of `clear`: witness, and an exact description: the forest left behind leads every new node to the root of the old node with the same number modulo the old length; the bound of C59 is reached by joining equal trees (binomial trees), whose deepest element is then searched |
| C68 | shape of the forest after a search: every node keeps its parent or points to its root; invariant over histories without `union`; depth is measured in stack frames |
| C69 | Tarjan's potential method: the potential of a node is the number of pairs (k, i), i < rank, with A_k iterated i+1 times on its rank above its parent's rank; every search pays for all but α(n)+2 of its calls; the counted model is proved to do what the model does, and the counter to equal the stack frames a search needs |

Nothing is classified as inexpressible.

## Where the code disagrees with what its users expect

Each item is proved as a theorem with a concrete witness (named in brackets), except the last, a remark on spelling.

* `CircularBuffer`: derived `Clone` calls `T::clone` on the uninitialised spare slot, for every buffer
  [`c16_clone_touches_uninitialised`]: undefined behaviour for any `T` that is not `Copy`.
* `CircularBuffer` of zero-sized elements: `len` overflows with overflow checks for every capacity above `isize::MAX`
  [`c21_exact`, `c21_huge_zst_len_overflows`]; without them `new(usize::MAX)` and `resize(usize::MAX)` allocate an
  empty slice, so the next `push_back` panics out of bounds [`c21_new_usize_max_unchecked`,
  `c21_resize_usize_max_unchecked`].
* `CircularBuffer`: when the buffer (or a partly used `into_iter`) is dropped and an element's destructor
  panics, the elements in front of it are never dropped [`c67_drop_leaks`].
* `Interval`: the empty interval contains every value [`c24_empty_contains_everything`] and intersects every
  interval [`c27_empty_intersects_everything`].
* `Interval`: `<=` and `partial_cmp` contradict each other [`c32_le_inconsistent`]: exactly for
  intervals that touch in a shared value, and for equal intervals that are not a single value [`c32_exact_partial`].
* `Counter`: the documentation promises the most common elements in O(k). They are sorted, which takes about k·log k
  comparisons in the worst case, whatever sort is used [`c97_most_common_not_linear`]. The other documented costs hold.
* `Counter` and `DisjointSet`: the documentation promises memory O(k) and O(n). `from_iter` and `extend` ask for room for
  all announced items, so a container made of equal items takes memory for all of them [`c99_memory_not_linear`,
  `c100_memory_not_linear`].
* `DisjointSet`: if the vector is refused memory while an element is added, the element is in the map already. Everything
  that looks at its group, and every iteration, panics from then on [`c100_refused_push_breaks`]. This needs an allocator
  whose refusals panic: with a table that grows as today's does, the table is refused memory before the vector exceeds
  `isize::MAX` bytes.
* `Interval`: `into_intersection` panics for values whose `==` is coarser than `cmp` (such as a wrapper of `f64` with
  `total_cmp` and the derived `==`) where `intersection` gives the common part [`c96_limits`].
* Bounds: comparing a lower with an upper bound of equal value gives contradictory answers
  [`c35_cross_contradictory`].
* `Interval * 0` with an open bound is empty although the image is `{0}` [`c37_zero_loses_points`]; integer
  division loses points next to open bounds [`c38_integer_loses_points`].
* `Interval op= x`: a panic of the second bound leaves an ill-formed interval
  [`c42_panic_leaves_ill_formed`].
* `Counter`: without overflow checks a count can wrap to a stored zero [`c50_wraps_to_zero`], so `==` differs
  from equality of multiplicities [`c54_wrapped_zero_differs`].
* `DisjointSet::clear`: a panicking element destructor leaves `data_by_id` behind, later answers are wrong
  [`c66_clear_not_panic_safe`]: new elements take over the unions of the old ones [`c66_clear_inherits`], and searches
  may go as deep as there are elements, so that any stack can overflow [`c66_clear_overflows_stack`].
* `CircularBuffer::from_iter` collects into a `Vec` of `ManuallyDrop`: if the user's iterator or a `clone`
  panics, the items consumed so far leak [`c75_from_iter_leaks`].
* `CircularBuffer::from(vec)` pushes an uninitialised `T` (not a `ManuallyDrop<T>`) onto the vector. If that push
  is refused because the vector already fills `isize::MAX` bytes, unwinding drops the uninitialised value:
  undefined behaviour for every type with a destructor. Feasible on 32-bit targets [`c85_from_full_vec_is_ub`].
* `CircularBuffer`: on toolchains that refuse `mem::uninitialized` for types with invalid bit patterns (all
  recent ones), there are no buffers of `String`, `Box` or references: every constructor panics or aborts
  [`c84_refused_types_have_no_buffers`].
* `CircularBuffer`: equal buffers can have different `Debug` texts, and the text shows no elements
  [`c83_debug_hides_content`].
* `Interval`, `LowerBound`, `UpperBound`: with `{:.0?}` the `Debug` text no longer tells which bounds are closed
  [`c132_interval_precision`].
* `interval/mod.rs` writes the empty interval `∅` (U+2205); `Display` prints `Ø` (U+00D8). The reader in C44
  reads what `Display` prints.

## Wrong programs

`seeded/LOG.jsonl` lists edits to the models that a realistic bug would make, the claim each one breaks, the
theorems that stopped proving, and what was tightened when none did.

How it is measured: the modules of one container are joined into one file, the edit is made, and every property
theorem that then depends on `sorryAx` or does not exist counts as failed. A theorem whose proof goes through a
broken helper lemma counts too, so a long list does not mean that each theorem in it contradicts the edit; what
matters is that a theorem of the broken claim is among them. Before a list of edits is run, the joined file must
prove everything without an edit. This check was added late: for a while the joined file of the circular buffer did
not prove the two C09 theorems (a joined import let `rw` close a goal earlier than the proof expected), and they were
reported as failed for every edit. Lines measured in that time are not part of the log. A line
names theorems of the model as it was when the line was measured; theorems added later have lines of their own. In
later lists only the modules that depend on the edited one are joined and checked again.
