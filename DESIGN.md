# Design

Lean 4 model of `bytefacets/collections` (`/repo`) and machine-checked proofs of the properties in
`properties.jsonl`.

## 1. How the code is modelled

* **Methods** are functions `σ → Res σ α` (`Verif/Java.lean`): a method either returns a value or
  throws, and in both cases leaves an object state behind, so partial updates before an exception
  are visible to theorems.  `Err.diverge` marks a loop that does not terminate.
* **Arrays** are `Arr α`: a length and a content function.  `rd`/`wr` check `0 ≤ i < length` and throw
  `indexOutOfBounds` otherwise.  Contents beyond the length are never observable.
* **Java `int`** is modelled by `Int`; where a 32-bit overflow is reachable the model wraps
  explicitly (`i32`), or uses `BitVec` (hashes, `NumUtils`, `Pack`, codecs, Snowflake).  Indices,
  sizes and capacities that the code itself keeps at or below 2^29 are left unwrapped; the
  theorems carry (or prove) the bound.
* **Templates** (`*.ftl`): one generic model per template, parametric in the element type, its
  DEFAULT, hash, equality and comparator; the concrete types instantiate it (`Verif/Model/KeyTypes.lean`).
* **Loops** become structural/well-founded recursion or recursion on a fuel argument whose
  exhaustion is the error `diverge`; theorems show it is never exhausted.
* **Load factor**: a `double` times a power-of-two capacity is exact, so the threshold
  `(int)(capacity * loadFactor)` is modelled as `capacity * num / den` for the rational value
  `num/den` of the double.

## 2. Plan per property

| ids | model | proof |
|---|---|---|
| C01–C03 | `Deque` ring buffer, ops, `grow` | refinement to `List`, invariant on every slot |
| C04 | `Vector` | refinement to `List` |
| C05–C08 | `NumUtils`, `CapacityCalculator`, `Arrays` | arithmetic, `BitVec 32`; C06 is false above 2^30 (loops forever): negation proved, partial kept |
| C09–C12 | `ChunkStore`, `ChunkMatrixStore` | refinement to a total map; C09/C11 false for chunk sizes that are not powers of two (mask uses the unrounded parameter): negation + partial |
| C13–C17 | `Pack`, codecs over `BitVec` | bit extensionality |
| C18–C21 | comparators, flags over `BitVec` | C18 false for `IntType.Asc` (subtraction overflow), C20 false (null second operand): negation + partial |
| C22 | date/time integer forms | integer arithmetic; exactly the years 0..214748 survive, as an equivalence over all dates |
| C23–C26 | Snowflake state machine over a stream of clock readings | invariant over calls; C23/C25 false when the clock regresses while waiting: negation + partial |
| C27–C44 | `BaseHash`, `BaseKeyIndex`, `IndexedSet/Map`, `EntryIterator` | invariant with ghost chains and free list, refinement to a list of rows; C31 false for tiny `capacity*loadFactor`, C41 false across `clear`, C38 false with custom hash: negation + partial |
| C45–C48 | `HydraDeque` | invariant with ghost lists, refinement to `id → List`; C48 false across `clear` |
| C49–C55 | `BaseHeap`, `BaseKeyHeap`, `KeyValueHeap` | tree/inverse bijection + heap order; C53, C54, C55 false: negation + partial |
| C56–C58 | `CompanionSort` | partition invariant, strong induction |
| C59–C64 | `Side`, `CompactOneToMany`, `CompactManyToMany` on top of the index model | invariant with ghost lists; C60–C62 false once entries outgrow the initial mapping capacity, C63, C64 false: negation + partial |
| C65 | `Vector` with stale-slot observation | invariant: every slot at or past `size` holds the default after remove/clear |
| C66 | codecs with partial writes visible | case analysis of the first failing byte; false for big endian: negation + partial |
| C67 | `BoolType` comparators | complete case analysis of the two-element domain |
| C68 | `HydraDeque` slots | invariant on free slots |
| C69 | `KeyArray.create/fill/resize` | array extensionality; false for −0.0: negation + partial |
| C70 | `StringType/GenericType.EqImpl` | case analysis on nulls |
| C71 | `BaseHeap.growIfNecessary` and insertion | capacity arithmetic; false for some constructible capacities: negation + partial |
| C72 | iterators of the two-sided collections | walk invariant under edits; false if the next entry is removed: negation + partial |
| C73, C74 | `DoubleType` comparators: a finite double is an integer in units of 2^-1074, subtraction is exact subtraction rounded to nearest even | a rounded non-zero difference is non-zero (it is at least one unit); with NaN false: negation + partial |
| C75 | `FloatType` comparators (`Float.compare`) | total order through an order embedding of the bits into the integers |
| C76 | predicates of both types | order laws of the value domain |
| C77 | `EqEpsilon` | exact-distance bounds; not transitive and not compatible with hash: negation + partial |
| C78 | `castTo*` | bit-vector and rounding lemmas; int→float characterised by an equivalence over all ints |
| C79 | `convert/box/unbox` | case analysis over an object domain, numerical value specified separately as a rational in a common unit; four ways it fails: negation + partial |
| C80 | `parseString`, text forms | induction on the decimal digits |
| C81 | `StringType` predicates | lexicographic order; null second operand throws: negation + partial |
| C82–C84 | `TimeoutManager` of the examples over the heap model; a schedule is any sequence of its synchronized calls and clock readings | invariant: pending items = live heap entries; heap order from C49–C53; negation for a late acknowledgement |
| C85, C86 | `InvertedIndex` and `School` of the examples over the models of the indexed set/map and the two-sided collections | refinement of a list of facts by simulation; the array-growth defect of C59–C61 surfaces: negation + partial |
| C87 | `StringType` on texts | comparison results by induction against a dictionary order defined by common prefixes |
| C88 | `Snowflake.nextId` | case analysis of one call; induction over the calls of a millisecond |
| C89 | `IntType` dates | integer arithmetic over all ints |
| C90, C91 | `forEach` of deque and vector with a consumer: a function from all values handed out so far to the calls it makes | simulation of an ideal walk (values before and after the cursor); counterexamples for the calls the walk does not survive |
| C92 | iterators of `HydraDeque` as a cursor (next entry) next to the deque | simulation of a position in the ideal list under arbitrary interleaved calls |
| C93 | the three `forEach` methods of the indexed collections with a consumer | chains are preserved outside removed entries (frame lemma per call), induction over the chains |
| C94 | the iterator object (`BaseHash.IteratorImpl`) next to the collection, calls on both in any order | simulation: a cursor while the modification count agrees, stale otherwise |
| C95 | `BaseHeap.forEachEntry` with a consumer | simulation of a walk over the ideal heap; false with removals: negation + partial |
| C96 | heap methods with a comparator that has an effect (`HeapEff`), here a counter | cost relation between the counting and the plain method, log2 bounds by halving/doubling of the node number |
| C97 | the same with a comparator that may throw | false for insert and removeAt: negation; erasure (simulation by the plain heap) when the keys are comparable |
| C98 | the sort once more (`SortMem`), on any state that holds the arrays, with the comparator as an arbitrary action on its own part | index invariants that do not depend on the answers; simulation by the plain sort when the answers depend on the keys only |
| C99 | the same with a counter | cost per loop by how far the indices move; induction over the nested calls |
| C100 | the same with one array in both roles | `swap` on one array swaps; then the simulation of C98 |
| C101 | `copyFrom` with `source == this` | every array operation is the identity, so only the modification count changes; no operation but the iterator reads it (`runM_blind`) |
| C102 | capacity after a history | a grow needs `nextUnusedEntry` over the threshold; `nextUnusedEntry` is bounded by the peak (C31's invariant) |
| C103 | `Snowflake.nextId` against an ideal generator over integers (`Spec/Snowflake.lean`) | simulation: the ideal generator describes the object, every call keeps that |
| C104 | `IteratorImpl.next` past the end, with its `head` counter as an `int` | the cursor simulation gives false for 2^30 calls; an exact run to the overflow: negation + partial |
| C105 | every container's `step` as in C01, C04, C27, C45, C49; `Spec/Unchanged.NoTrace` compares the two futures | a call whose ideal result is an exception changes no field (per call; `Quiet`/`Tidy` combinators), so both futures are one run; `Link/Unchanged` for the generated code |
| C106 | `IndexEff.step eff`: every method of BaseKeyIndex/KeyValueIndexedMap once more, with `hashFunc.code` and `equalFunc.areEqual` as effects `eff`; `Spec/IndexEff.asked`, `askedGrowing` list the questions | each method is shown to ask `asked` before its first change, then `askedGrowing`, and to end as the pure method (`First`); counts follow |
| C107 | `IndexEff.step eff` with effects that throw | refuted by an exception during growth; proved for hash functions that keep hashing what they hashed once, by the invariant that all stored keys were hashed |
| C108 | the generated walks once more, with the consumer's state beside the object (`Gen/*Walk`, `Model/Walk`) | each loop, from what it does without a state: induction on its steps, one lemma per way to hand out (nothing, one more, one list after another) |
| C109 | array lengths of deque, vector and heap after a history (`Spec/Growth.LeastDoubling`) | each call makes the least doubling that holds what it needs; least doublings compose (`LeastDoubling.trans`), induction over the history; `Link/Growth` for the generated code |
| C110, C111 | the stores with the mask of an unrounded chunk size (`Spec/StoresAny`: `SameCell`, `stepAny`) | refinement to an array in which `set` writes all indexes sharing a cell; each index is mapped to the index of its cell (`cellOf`), where the flat array of C09 applies; `Link/StoresAny` for the generated code |
| C112 | entries and value array of the multi-headed deque after a history (`Spec/GrowthHydra.hydraSpent`) | the storage-aware ideal of C48: its first unused entry is the sum of the peaks (`spent_run`), all smaller ones were handed out (`seen_run`); array length by `Keeps` over every call (`grown_run`); `Link/GrowthHydra` for the generated code |
| C113 | the generated walks (`Gen/*Walk`) with consumers given as scripts: calls whose answers decide what follows, own state, exceptions (`Spec/Script`) | the ideal walk is a weakest precondition (`Script.sure`, `Sure`); a script on the real collection follows one on the ideal contents (`play_spec`), then induction over `Sure` with the loop invariants of C90, C92, C93, C95; consumers that occur in practice (removeIf, replaceAll, work queue, drain, removal of all heap entries) by induction over the ideal walk (`ScriptIndexIf`, `ScriptIndexReplace`, `ScriptQueue`, `ScriptQueueEndless`, `ScriptHeapHalf`; the consumers are in `Spec/ScriptUse`) |
| C114 | the generated walks of a mapping (`Gen/PairsWalk`) with scripts as consumers (`Spec/ScriptBi`); the ideal collection of C59 already contains the iterator the walk uses | the generated loop is `hasNext`, `next` and the script, so induction over `Sure` with the call theorems of C59; for the consumer that removes, `Sure` by induction over the associations to come |
| C115 | the generated `forEachEntry` of the collection (`Gen/PairsWalk`, the two loops of `BaseHash`) with scripts as consumers (`Spec/ScriptBi`: the entries to come and the ideal collection) | a call that adds no association only shrinks the chains of the set of pairs (`Bi.step_shrunk`, from `Index.step_shrunk` of C93), so the induction of C113 over chains goes through with the two-sided invariant beside it; the weeding consumer by induction over the entries to come |

## 3. Reading guide

* `lean/Verif/Java.lean`, `Trace.lean`: meaning of Java `int`, arrays, exceptions, call histories
  (`runM step s ops` runs a list of API calls and collects the list of results; a call that throws
  leaves its partial updates behind and the history goes on).
* `lean/Verif/Model/*.lean`: the code, function by function, each definition with its file and lines.
* `lean/Verif/Spec/*.lean`: the small independent specifications (a list for a deque, a finite list of
  rows for a map, a set of pairs for the two-sided collections, ...).  They never mention the model's
  arrays, links or free lists.
* `lean/Verif/Proofs/*.lean`: invariants and lemmas.
* `lean/Verif/Props/*.lean`: the property theorems `Cnn_*`, each with an `example` that instantiates its
  hypotheses on a concrete non-trivial case.  `_partial` marks a theorem that covers part of the
  English property, `_refuted` a theorem that proves that the rest is false of the code.
* `lean/Verif/Gen/*.lean`, `lean/Verif/Link/*.lean`: see section 7.
* `seeded/`: wrong programs the theorems were tested against (`LOG.jsonl`; `run.py` re-runs them).
* `tools/manifest.py`, `tools/axioms.py`: regenerate `MANIFEST.json` and `AXIOMS.md`.

## 4. Trusted base

* **Lean 4.33.0's kernel**, and Mathlib as installed (single modules are imported, for lemmas and
  tactics only; nothing of Mathlib is trusted beyond what the kernel rechecks).
* **Axioms**: only Lean's standard `propext`, `Quot.sound` and `Classical.choice`.  `AXIOMS.md` lists,
  theorem by theorem, which of them `#print axioms` reports.  No axiom is declared here, and nothing
  rests on compiled code.  Concrete cases use `decide +kernel`, which is evaluation by the kernel.
* **The reading of the Java code**: for the files listed in section 7 the model is proved to agree with
  definitions that `tools/j2l` generates from the Java text, so there the translator is trusted
  instead of a person's reading; for the rest (the three programs in `examples/`, and the few methods that
  section 7 names as not linked) the model was written by hand from `/repo` and nothing checks it against
  the code mechanically.  The FreeMarker templates are read as text; that
  the generated classes are what the template says is assumed.
* **JDK and language semantics** assumed in the model: two's-complement wrap-around, array bounds
  checks, `System.arraycopy/Arrays.fill/Arrays.copyOf`, `Integer.highestOneBit`-style bit operations,
  `Double/Float/Long.hashCode`, IEEE 754 equality, order, subtraction and conversions (round to nearest
  even), `Integer.parseInt`-style parsing of ASCII decimals, `floatToRawIntBits` and its inverse,
  `LocalDate.of/LocalTime.of` validation, `synchronized` giving mutual exclusion.

## 5. What is modelled

| source | model | not modelled |
|---|---|---|
| `NumUtils.java`, `CapacityCalculator.java` | `NumUtils` | – |
| `arrays/KeyArray.ftl` | `Arrays` | – |
| `queue/KeyDeque.ftl` | `Deque` | – |
| `vector/KeyVector.ftl` | `Vector` | – |
| `store/KeyChunkStore.ftl`, `KeyChunkMatrixStore.ftl`, `RangeCheckException`, `InitializationException` checks | `Stores`, `StoresAny` | exception messages |
| `types/Pack.java`, flag helpers | `Pack` | – |
| `types/*Type.java` read/write | `Codec` | a float is its bits |
| `types/*Type.java` comparators and predicates | `Compare`, `Floats` | sign of a zero difference (unobservable) |
| `types/StringType.java` with `String.compareTo/compareToIgnoreCase/equals/hashCode` | `Strings` | case tables are parameters; folding is per char |
| `types/*Type.java` `castTo*`, `box`, `unbox`, `convert`, `parseString` | `Convert` | `Number`s other than the six boxed types; `parseDouble`, `parseFloat` and the text of floating-point values are parameters; non-ASCII digits and letters |
| `types/*Type.java` `EqImpl/HashImpl` | `KeyTypes` | – |
| `types/IntType.java` dates | `Dates` | `LocalDate` internals beyond field validation |
| `id/Snowflake.java` | `Snowflake` | `toString`, default node name (network, random); clock = arbitrary stream |
| `hash/BaseHash.java`, `BaseKeyIndex.ftl`, `KeyIndexedSet.ftl`, `KeyValueIndexedMap.ftl` | `Index`, `Iterator`, `IteratorUse`, `CopySelf`; `IndexEff` with hash and equality functions that throw or have a state of their own | NaN load factor; functions that call back into the collection |
| consumers that call back into deque, vector, heap, indexed collections; iterators of `HydraDeque` under modification | `Callbacks`, `CallbacksIndex`, `CallbacksHeap`, `Hydra` | consumers that only throw or keep a state: C108; that do everything: C113, C114, C115 |
| `queue/KeyHydraDeque.ftl` | `Hydra` | exception messages |
| `heap/BaseHeap.java`, `BaseKeyHeap.ftl`, `KeyValueHeap.ftl` | `Heap`; `HeapEff` with comparators that throw or have a state of their own | comparators that call back into the heap |
| `sort/KeyValueCompanionSort.ftl` | `Sort`; `SortMem` for comparators with effects and for one array passed twice | comparators that write to the arrays being sorted |
| `bi/*.java` | `Bi` (on top of `Index` and `Pack`) | consumers that take away the association that comes next, or add associations in the walk over all entries (refuted: C114, C115) |
| `examples/.../heap/TimeoutExample.java` | `Timeout` (on top of `Heap`) | the waiting itself; any schedule = any sequence of the synchronized calls |
| `examples/.../bi/InvertedIndexExample.java`, `ManyToManyExample.java` | `InvertedIndex`, `School` (on top of `Index`, `Bi`, `Strings`) | the printed texts; a consumer's output before a walk throws |
| `functional/*.ftl`, `KeyIndexedCollection.ftl`, `KeyStore.ftl`, `KeyMatrixStore.ftl` | interfaces without behaviour | – |

Not modelled anywhere: concurrent unsynchronised use, memory exhaustion, stack depth, garbage
collection (retention of references is stated as "which slots hold which values"), exception messages.

## 6. Where the code does not do what the property says

Each item is a theorem with suffix `_refuted` about the model, and was re-read against the code.

* **Arrays/capacity.** `grow` loops forever for requests above 2^30 (C06).  `CapacityCalculator` shrinks
  capacities strictly between 2^29 and 2^30 (C08), so such a heap loses its data when it grows (C71).
  A heap of capacity 0 never accepts an insertion (C71).  `create(size, -0.0)` yields `0.0` (C69).
  A deque at its 2^29 limit reports a wrong size after the `ResizeException` (C01).
* **Stores.** The chunk mask is built from the chunk size as given, not rounded: for sizes that are not
  powers of two different indices share a cell (C09, C11).  Large initial sizes overflow (C10).
* **Types.** `IntType.Asc` subtracts, so it is not transitive (C18).  `Asc` of the reference types throws
  for a null second operand (C20).  Negative and very large years do not survive (C22).  Big-endian
  writes that do not fit leave a prefix behind (C66).
  The double comparators call NaN equal to everything and two equal infinities equal, so with NaN they are
  not transitive (C74).  `EqEpsilon` is not transitive and disagrees with the hash (C77).  `int` to `float`
  and back changes values above 2^24 (C78).  `CharType.convert` rejects a `Character`, `convert` truncates
  silently, `BoolType.convert` of 0.5 or 2^32 is false (C79).  The order predicates of `StringType` throw
  for a null second operand (C81).
* **Snowflake.** While waiting for the next millisecond any *different* reading ends the wait, so a clock
  step back there yields a duplicate id without an exception (C23, C25).
* **Index.** With `capacity*loadFactor < 1/2` growth forgets free entries (C31).  `removeAtAndReserve` of a
  NaN key does nothing (C34).  `clear` of an empty collection keeps values of reserved entries (C37) and
  resets the modification count, so an iterator does not notice (C41).  `next()` after the end keeps incrementing the
  bucket number, which overflows after 2^31 calls and ends in ArrayIndexOutOfBoundsException (C104).  `copyFrom` keeps the target's hash
  function (C38).
* **HydraDeque.** `clear` does not reset the entry counter, so storage grows with every clear (C48).
* **Heap.** `removeAt` accepts entries that were never handed out and drops a live one (C53);
  `forEachEntry` and `isValidEntry` look at `0..size-1` / the inverse array only (C54); `clear` wipes only the first
  `size` entries (C55).  Also seen, outside the properties: `removeAt` does not change the modification
  count, `resetKey` of an entry that is not live corrupts the order, and the arguments of the
  `InvalidEntryException` message are in the wrong order.
  A comparator that throws (`Asc` with a null key) leaves the heap damaged: a failed insertion adds a second copy of
  an entry, a failed removal loses one (C97).
* **Sort.** The range check `off + len > length` overflows (C58).
* **Two-sided collections.** the link arrays only grow when a key gets its second association, so the first
  association of a key whose entry lies beyond the arrays can be neither removed nor walked (C59–C61); removing an entry
  twice decrements counts twice (C62); values of unknown keys throw (C63); a put with a negative key
  throws after it has added the pair (C64); `CompactOneToMany` does not keep a right key to one left (C59);
  removing the entry an iterator is about to hand out breaks the walk (C72).
* **Consumers that change the collection.** `forEach` of a deque follows the array, not the contents: removing the
  current value from the back runs through stale cells, removing ahead of the walk hands out defaults, clearing
  hands out dead values, growing skips values (C90).  An iterator of `HydraDeque` reads the link of the next entry
  when it is called, so removing that entry ends the walk or continues in another list (C92).  The walks of the indexed
  collections remember the next entry before the consumer runs and count up to the size at the start: removing the
  next entry hands out a dead one and skips live ones, adding a key can skip another (C93).
  `forEachEntry` of a heap with a consumer that removes what it is handed reaches only half of the entries (C95).
* **TimeoutExample.** Acknowledging an item after it was reported cancels whichever item reuses its handle (C84).
* **InvertedIndexExample, ManyToManyExample.** Both inherit the defect of the link arrays: once there are more
  associations than the initial capacity, walking a term, class or student with exactly one association throws
  (C85, C86); even the `main` of the latter can fail for some random choices.  Also seen: the NOT FOUND message of
  `printClassesForStudent` prints the entry (-1) instead of the name.

## 7. Mechanical translation of the Java text

`tools/j2l/translate.py` parses the Java sources and templates in `/repo` (it needs neither a JDK nor
the project's dependencies) and writes `lean/Verif/Gen/*.lean`: one Lean definition per Java method, in
the monad of `Verif/Java.lean`, statement by statement in evaluation order, each `int` result wrapped to 32
bits, each array access checked, each loop a function that recurses on a counter `fuel`.
`lean/Verif/Link/*.lean` proves that the generated definitions agree with the hand-written model (for
the loops: for every `fuel` from a stated bound on, so the answer is the loop's and not the counter's), and
carries the properties over as the theorems `Cnn_generated_*`.

| source | generated | linked |
|---|---|---|
| `NumUtils.java`, `CapacityCalculator.java`, the two `assert*` of the exceptions | `NumUtils`, `CapacityCalculator`, `RangeCheckException`, `InitializationException` | `Link/Basic` |
| `arrays/KeyArray.ftl` | `KeyArray`, and `GenericArray` for its generic instance | `Link/Arrays`, `ArraysProps`; C05-C08, C69 |
| `queue/KeyDeque.ftl` | `KeyDeque` | `Link/Deque`, `DequeProps`, `Growth`; C01-C03, C65, C90, C91, C109 |
| `vector/KeyVector.ftl` | `KeyVector` | `Link/Vector`, `DequeProps`, `Growth`; C04, C65, C91, C109 |
| `store/KeyChunkStore.ftl`, `KeyChunkMatrixStore.ftl` | `KeyChunkStore`, `KeyChunkMatrixStore` | `Link/Stores`, `StoresProps`, `StoresAny`; C09-C12, C110, C111 |
| `hash/KeyValueIndexedMap.ftl` with its superclasses `hash/BaseKeyIndex.ftl`, `hash/BaseHash.java` | `KeyValueIndexedMap` | `Link/Sim`, `Keeps`, `Index1`-`Index6`, `IndexProps`, `IndexProps2`, `IndexCallbacks`: constructors, every public call, `copyFrom`, consumers that call back; C27-C38, C41, C43, C44, C93, C102 |
| the same classes, once more with `hashFunc.code` and `equalFunc.areEqual` as effects (every method that calls them; the others are lifted) | `KeyValueIndexedMapEff`, `KeyIndexedSetEff` | `Link/IndexEff`, `IndexEffProps`, `SetEff`, `SetEffProps`: every public call; C106, C107 |
| the `forEach*` methods of deque, vector, heap, map and set, once more with a consumer that has a state beside the object | `KeyDequeWalk`, `KeyVectorWalk`, `KeyValueHeapWalk`, `KeyValueIndexedMapWalk`, `KeyIndexedSetWalk` | `Link/Walk`, `WalkProps`, `Script`, `ScriptIndex`, `ScriptSet`, `ScriptIndexIf`, `ScriptIndexReplace`, `ScriptQueue`, `ScriptHeapHalf`; C108, C113 |
| the `forEach*` methods of mappings, and `forEachEntry` of the two-sided collections, once more with a consumer that has a state beside the object | `PairsWalk` | `Link/ScriptBi`, `ScriptBiClear`: the mappings, C114; `ScriptBiAll`: the collections, C115 |
| `hash/BaseHash.java`: `iterator()` and `IteratorImpl` | `EntryIterator` (once for the map, once for the set) | `Link/Iterator`, `IteratorSet`: every method, calls on the collection between calls on the iterator; C39, C40, C94, C104 |
| `heap/KeyValueHeap.ftl` with `heap/BaseKeyHeap.ftl`, `heap/BaseHeap.java` | `KeyValueHeap` | `Link/Heap`, `HeapProps`, `HeapCallbacks`: constructor, every public call, consumers that call back; C49-C55, C71, C95 |
| the same classes, once more with `comp.compare` as an effect (every method that calls it; the others are lifted) | `KeyValueHeapEff` | `Link/HeapEff`, `HeapEffProps`: every public call; C96, C97 |
| `queue/KeyHydraDeque.ftl` with its `ForwardIterator` and `ReverseIterator` | `KeyHydraDeque` | `Link/Hydra`, `Link/HydraRun`: constructor, every public call, both iterators, calls on the deque between calls on the iterator, `HydraProps`, `GrowthHydra`; C45-C48, C68, C92, C112 |
| `hash/KeyIndexedSet.ftl` (same superclasses) | `KeyIndexedSet` | `Link/Set1`-`Set4` (through the generated map: the set does what the map does, its value array apart): constructors, every public call, `copyFrom`; C27, C31, C38 |
| `sort/KeyValueCompanionSort.ftl` | `KeyValueCompanionSort` | `Link/Sort`, `SortC`: `sort` for every comparator with any effects, two arrays or one passed twice; C56, C57, C58, C98, C99, C100 |
| `bi/CompactManyToMany.java`, `bi/CompactOneToMany.java` with their sides, mappings and iterators, `functional/KeyIterator.ftl` | `Pairs` | `Link/Bi1`-`Bi8`: constructors, every public call, both iterators of both sides; C59-C64, C72 |
| `types/Pack.java`, `types/ByteType.java`, `ShortType`, `CharType`, `IntType`, `LongType`, `FloatType`, `DoubleType`, `BoolType`, `StringType`, `GenericType` | `Types` | `Link/Types1`-`Types5`: packing, codecs, flags, comparators, predicates, equality and hash, casts, boxes, conversions, texts, dates; C13-C22, C42, C66, C67, C70, C73-C81, C87, C89 |
| `id/Snowflake.java` | `Snowflake` | `Link/Snowflake`: constructors, `nextId`, `parse`, the node made from a name; C23-C26, C88, C103 |

What is trusted in the generated files: the translator itself (about 1900 lines of Python), and these
conventions of it.  A constructor is a method `init` on a fresh object, whose fields hold Java's default
values where the theorem says so.  An array held in a local variable is a value, so cells that a callee
wrote before it threw are not seen by the caller (no public method lets one see them).  A `null` chunk is an array of length 0: both make any access
throw, with a different exception.  Division by zero is not translated to an exception; no linked code
divides by zero.  A template's `<#if>` on the element type becomes the parameter `ref`.
A local variable that aliases a field's array is the array's value at that point; the translator
refuses to write through it.  A class is translated together with its superclasses: an overridden
method that is called through `super` gets the prefix `super_`.  The load factor is a pair of naturals
(num, den), as in the model; a comparator parameter is an `Option` (`none` is null), `==` on comparators
compares references, as in the model; `capacity * loadFactor` in `float` is the model's `threshold`.
The arrays that `sort` and its helpers pass along are places in a memory (`Mem`, as in the model), and
`sort`, which calls itself, may nest `depth` calls; a deeper call is Java's StackOverflowError.
In the two-sided collections the objects a collection holds (its set of pairs, its two halves, its mappings
and their iterators) are fields of one record, as in the model; the translator checks that each is made
once, in the constructor, with the arguments this wiring assumes.  Packing a pair into a `long` is the
model's `Pack` (C76), and the right half that a `CompactOneToMany` does not have is fixed in `raw`.
In `types/*.java` and `id/Snowflake.java` (translated by `tools/j2l/prims.py`) a primitive of `w` bits is a
`BitVec w`, with Java's promotions written out; a `float` or `double` is its bits.  The JDK methods these
files call are written from their specifications in `Gen/Jdk.lean` (`Math.abs`, `compare`, `Number.xxxValue`,
`parseInt`, `LocalDate.of`, ...); what they leave open (`compareTo`, `equals`, `hashCode` of objects,
`parseFloat`, `parseDouble`, `toString` of other objects) is a parameter.  An object is a reference
(`Option Nat`) where the code compares or hashes it and a value (`JObj`) where it converts it; a cast to
`Comparable` is not checked.  A reference to an iterator of an indexed collection is `some ()` for the one of the state and `none` for null.
A `Supplier<String>` that gives a node name is the hash of its result, and the
clock is the list of its readings.
Not translated, hence not linked: `toString` methods and exception messages.
`tools/linkaudit.py` lists the theorems `Cnn_generated_*` whose statement mentions no generated definition (none) and the
generated definitions that no such statement reaches (two `numChunks`, two getters of the heap and three methods that a
subclass overrides); it was written after a mutation of `Pack.java` survived because `Pack` in a theorem had resolved to the model.

`lean/Verif/Conformance/*.lean` runs the project's own unit tests (`collections/src/test`, every test class:
deque, hydra deque, stores, map, set, `bi`, heap, sort, arrays, `NumUtils`, `Pack`, the type classes) on the generated
definitions, with the sizes of a few loops reduced, and checks the floating-point conversions and dates of `Gen/Jdk.lean`
against values computed outside Lean.  These are **tests of the translator and of the reading of Java**, evaluated by
the kernel on literals; no claim in `MANIFEST.json` names them.  Expected exceptions are compared by class only.
