{"id": "C01", "title": "Deque behaves as a double-ended sequence", "statement": "For every sequence of addFirst, addLast, removeFirst, removeLast, peekFirst, peekLast, size, isEmpty, forEach and clear on a Deque, every result (returned value, size, iteration order, NoSuchElementException) is the one an ideal list would give, for any initial capacity and however often the ring buffer wraps and grows, while fewer than 2^29 elements are held.", "quantifier": "every operation history, every element type, every initial capacity from 1 to 2^29", "why_tests_cant": "the interleavings of wrap-around position and growth point are unbounded; tests visit a handful", "anchors": ["collections/src/main/templates/com/bytefacets/collections/queue/KeyDeque.ftl:addFirst", "collections/src/main/templates/com/bytefacets/collections/queue/KeyDeque.ftl:addLast", "collections/src/main/templates/com/bytefacets/collections/queue/KeyDeque.ftl:grow", "collections/src/main/templates/com/bytefacets/collections/queue/KeyDeque.ftl:removeFirst", "collections/src/main/templates/com/bytefacets/collections/queue/KeyDeque.ftl:removeLast", "collections/src/main/templates/com/bytefacets/collections/queue/KeyDeque.ftl:forEach"]}
{"id": "C02", "title": "Deque rejects removal from empty without damage", "statement": "removeFirst, removeLast, peekFirst and peekLast throw NoSuchElementException exactly when the deque is empty, and a throwing call leaves the observable contents unchanged.", "quantifier": "every reachable deque state", "why_tests_cant": "emptiness is reached through unboundedly many histories", "anchors": ["collections/src/main/templates/com/bytefacets/collections/queue/KeyDeque.ftl:removeFirst", "collections/src/main/templates/com/bytefacets/collections/queue/KeyDeque.ftl:peekFirst"]}
{"id": "C03", "title": "Deque retains no removed references", "statement": "After any history, every slot of the backing array of a reference-typed Deque that does not hold a current element holds the type default (null): removed, cleared and grown-away elements are never kept alive.", "quantifier": "every operation history", "why_tests_cant": "a leak needs a particular head/tail/wrap configuration at the time of removal, clear or growth", "anchors": ["collections/src/main/templates/com/bytefacets/collections/queue/KeyDeque.ftl:clear", "collections/src/main/templates/com/bytefacets/collections/queue/KeyDeque.ftl:grow", "collections/src/main/templates/com/bytefacets/collections/queue/KeyDeque.ftl:removeFirst"]}
{"id": "C04", "title": "Vector behaves as an append-only list", "statement": "For every sequence of append, ensureSize and clear on a Vector, size, valueAt(i) for i < size and forEach give exactly the values appended since the last clear, in order.", "quantifier": "every operation history, initial capacity and element type", "why_tests_cant": "growth points and histories are unbounded", "anchors": ["collections/src/main/templates/com/bytefacets/collections/vector/KeyVector.ftl:append", "collections/src/main/templates/com/bytefacets/collections/vector/KeyVector.ftl:ensureSize"]}
{"id": "C05", "title": "Array growth preserves contents and accommodates the request", "statement": "ensureSize/ensureEntry with a request up to 2^30 return an array at least as long as requested whose old prefix is unchanged and whose new cells hold the given fill value, and return the same array when it is already long enough.", "quantifier": "every array, requested size and fill value for which the call returns", "why_tests_cant": "all sizes and contents", "anchors": ["collections/src/main/templates/com/bytefacets/collections/arrays/KeyArray.ftl:ensureSize", "collections/src/main/templates/com/bytefacets/collections/arrays/KeyArray.ftl:ensureEntry", "collections/src/main/templates/com/bytefacets/collections/arrays/KeyArray.ftl:grow", "collections/src/main/templates/com/bytefacets/collections/arrays/KeyArray.ftl:copyOf"]}
{"id": "C06", "title": "Array growth always terminates with a doubled length", "statement": "For every requested size up to Integer.MAX_VALUE, the growth computation terminates and yields current*2^k for the least k that reaches the request.", "quantifier": "every current length and every requested size in the int range", "why_tests_cant": "the failing requests are above 2^30 and cannot be allocated in a unit test", "anchors": ["collections/src/main/templates/com/bytefacets/collections/arrays/KeyArray.ftl:grow"]}
{"id": "C07", "title": "nextPowerOf2 is the least power of two at or above its argument", "statement": "For 1 <= v <= 2^30, nextPowerOf2(v) is a power of two, is >= v, and no smaller power of two is; outside that range the exact value is 1 (v <= 0, v > MIN) or Integer.MIN_VALUE.", "quantifier": "all 2^32 int arguments", "why_tests_cant": "2^32 inputs", "anchors": ["collections/src/main/java/com/bytefacets/collections/NumUtils.java:nextPowerOf2"]}
{"id": "C08", "title": "Capacity calculation always grows, never past the maximum", "statement": "calculateNewCapacity either throws ResizeException, or returns a capacity that is strictly larger than a capacity below the maximum, exactly doubled and capped at 2^29, or the unchanged maximum itself; powers of two stay powers of two.", "quantifier": "every int capacity and threshold", "why_tests_cant": "overflow corner cases across 2^32 inputs", "anchors": ["collections/src/main/java/com/bytefacets/collections/CapacityCalculator.java:calculateNewCapacity", "collections/src/main/java/com/bytefacets/collections/heap/BaseHeap.java:calculateNewCapacity"]}
{"id": "C09", "title": "ChunkStore returns the last value set at each index", "statement": "After any sequence of set calls, get(i) returns the value of the latest set(i, .), or the type default if i was never set, for every initial size and every chunk size.", "quantifier": "every history of sets and gets, every initial size, every chunk size", "why_tests_cant": "aliasing between indexes depends on chunk size and index pattern", "anchors": ["collections/src/main/templates/com/bytefacets/collections/store/KeyChunkStore.ftl:get", "collections/src/main/templates/com/bytefacets/collections/store/KeyChunkStore.ftl:set", "collections/src/main/templates/com/bytefacets/collections/store/KeyChunkStore.ftl:grow"]}
{"id": "C10", "title": "ChunkStore capacity accommodates every set index and never shrinks", "statement": "getCapacity is always a whole number of chunks, never decreases, and exceeds every index that was set.", "quantifier": "every history of sets", "why_tests_cant": "unbounded index patterns", "anchors": ["collections/src/main/templates/com/bytefacets/collections/store/KeyChunkStore.ftl:grow", "collections/src/main/templates/com/bytefacets/collections/store/KeyChunkStore.ftl:getCapacity"]}
{"id": "C11", "title": "ChunkMatrixStore returns the last value set at each row and field", "statement": "After any sequence of set calls, get(row, field) returns the value of the latest set(row, field, .), or the default if never set; different (row, field) cells never interfere.", "quantifier": "every history, initial size, chunk size and number of fields", "why_tests_cant": "aliasing depends on chunk size, field count and index pattern", "anchors": ["collections/src/main/templates/com/bytefacets/collections/store/KeyChunkMatrixStore.ftl:get", "collections/src/main/templates/com/bytefacets/collections/store/KeyChunkMatrixStore.ftl:set", "collections/src/main/templates/com/bytefacets/collections/store/KeyChunkMatrixStore.ftl:grow"]}
{"id": "C12", "title": "ChunkMatrixStore rejects out-of-range fields without effect", "statement": "get and set throw RangeCheckException exactly when field is outside [0, numFields), leaving the store unchanged, and get of a row at or beyond the capacity returns the default without growing.", "quantifier": "every store state, row and field", "why_tests_cant": "all rows and fields", "anchors": ["collections/src/main/templates/com/bytefacets/collections/store/KeyChunkMatrixStore.ftl:get", "collections/src/main/templates/com/bytefacets/collections/store/KeyChunkMatrixStore.ftl:set", "collections/src/main/java/com/bytefacets/collections/exception/RangeCheckException.java:assertWithinRange"]}
{"id": "C13", "title": "Packing two ints into a long is a bijection", "statement": "unpackHiInt/unpackLoInt recover exactly the packed halves, and packToLong of the unpacked halves is the original long; distinct pairs pack to distinct longs.", "quantifier": "all pairs of ints, all longs", "why_tests_cant": "2^64 inputs", "anchors": ["collections/src/main/java/com/bytefacets/collections/types/Pack.java:packToLong"]}
{"id": "C14", "title": "Packing shorts and bytes is a bijection", "statement": "packToInt(short,short), packToInt(byte x4) and packToShort(byte,byte) are inverted by the matching unpack methods and vice versa, with no sign-extension leakage between parts.", "quantifier": "all shorts and bytes, all ints and shorts", "why_tests_cant": "2^32 inputs with sign corner cases", "anchors": ["collections/src/main/java/com/bytefacets/collections/types/Pack.java:packToInt", "collections/src/main/java/com/bytefacets/collections/types/Pack.java:packToShort"]}
{"id": "C15", "title": "Binary encodings round-trip", "statement": "For byte, short, char, int, long, bool (and float/double through their raw bits) readX(writeX(v)) = v for both little- and big-endian at every in-bounds position.", "quantifier": "all values, array contents and positions", "why_tests_cant": "all values of up to 64 bits", "anchors": ["collections/src/main/java/com/bytefacets/collections/types/IntType.java:writeLE", "collections/src/main/java/com/bytefacets/collections/types/LongType.java:readBE", "collections/src/main/java/com/bytefacets/collections/types/ShortType.java:writeLE", "collections/src/main/java/com/bytefacets/collections/types/CharType.java:readLE", "collections/src/main/java/com/bytefacets/collections/types/BoolType.java:writeLE", "collections/src/main/java/com/bytefacets/collections/types/ByteType.java:writeLE"]}
{"id": "C16", "title": "Binary writes touch only their own bytes", "statement": "writeLE/writeBE modify exactly the bytes at pos .. pos+width-1 and return pos+width, so values written back to back at the returned positions all read back.", "quantifier": "all arrays, positions and value sequences", "why_tests_cant": "unbounded sequences of mixed writes", "anchors": ["collections/src/main/java/com/bytefacets/collections/types/IntType.java:writeLE", "collections/src/main/java/com/bytefacets/collections/types/LongType.java:writeLE"]}
{"id": "C17", "title": "Little- and big-endian layouts mirror each other and follow the byte order", "statement": "writeBE stores the most significant byte first, writeLE the least significant byte first, and the two layouts are byte-reversals of each other.", "quantifier": "all values", "why_tests_cant": "all 64-bit values", "anchors": ["collections/src/main/java/com/bytefacets/collections/types/IntType.java:writeBE", "collections/src/main/java/com/bytefacets/collections/types/LongType.java:writeBE"]}
{"id": "C18", "title": "Ascending comparators order values correctly", "statement": "For byte, short, char, int, long, the ascending comparator is negative/zero/positive exactly when the first argument is numerically less/equal/greater, hence a total order usable by heaps and sorts; the IS_LT.. predicates agree with it.", "quantifier": "all pairs (and triples, for transitivity) of values of each type", "why_tests_cant": "2^64 pairs; overflow cases are far apart", "anchors": ["collections/src/main/java/com/bytefacets/collections/types/IntType.java:Asc", "collections/src/main/java/com/bytefacets/collections/types/LongType.java:Asc", "collections/src/main/java/com/bytefacets/collections/types/ShortType.java:Asc", "collections/src/main/java/com/bytefacets/collections/types/ByteType.java:Asc", "collections/src/main/java/com/bytefacets/collections/types/CharType.java:Asc"]}
{"id": "C19", "title": "Descending and absolute comparators", "statement": "Desc(a,b) has the sign of Asc(b,a); AbsAsc/AbsDesc order by absolute value.", "quantifier": "all pairs of values of each type", "why_tests_cant": "sign/overflow corner cases over 2^64 pairs", "anchors": ["collections/src/main/java/com/bytefacets/collections/types/IntType.java:AbsAsc", "collections/src/main/java/com/bytefacets/collections/types/LongType.java:AbsAsc"]}
{"id": "C20", "title": "String and generic comparators sort nulls last", "statement": "nullableCompare is a total comparison in which null comes after every non-null value: it never throws and compare(a,b) and compare(b,a) have opposite signs.", "quantifier": "all pairs of possibly-null values", "why_tests_cant": "needs null on the second operand", "anchors": ["collections/src/main/java/com/bytefacets/collections/types/StringType.java:nullableCompare", "collections/src/main/java/com/bytefacets/collections/types/GenericType.java:nullableCompare"]}
{"id": "C21", "title": "Bit flags", "statement": "enableBits then test sees the bits set, disableBits clears exactly those bits and no others; disable after enable of disjoint bits restores the flag.", "quantifier": "all flags and masks of 8, 16, 32, 64 bits", "why_tests_cant": "2^128 pairs", "anchors": ["collections/src/main/java/com/bytefacets/collections/types/IntType.java:enableBits", "collections/src/main/java/com/bytefacets/collections/types/LongType.java:disableBits"]}
{"id": "C22", "title": "Dates and times survive their integer form", "statement": "toLocalDate(fromLocalDate(d)) = d exactly for the dates of the years 0..214748 that the int form has room for (other dates are rejected or come back different), toLocalTime(fromLocalTime(t)) equals t truncated to seconds for every time, and the int forms are ordered like the dates and times.", "quantifier": "all LocalDate and LocalTime values", "why_tests_cant": "years range over +-999,999,999", "anchors": ["collections/src/main/java/com/bytefacets/collections/types/IntType.java:fromLocalDate", "collections/src/main/java/com/bytefacets/collections/types/IntType.java:toLocalDate", "collections/src/main/java/com/bytefacets/collections/types/IntType.java:toLocalTime"]}
{"id": "C23", "title": "Snowflake ids are unique and strictly increasing", "statement": "The ids returned by one generator are pairwise distinct and strictly increasing, whatever the clock returns, for timestamps within the 41-bit range.", "quantifier": "every sequence of clock readings (including backwards jumps) and every number of calls, hence every serialisation of concurrent callers", "why_tests_cant": "clock behaviours are unbounded, sequence exhaustion needs 4096 ids in a millisecond", "anchors": ["collections/src/main/java/com/bytefacets/collections/id/Snowflake.java:nextId", "collections/src/main/java/com/bytefacets/collections/id/Snowflake.java:waitNextMillis"]}
{"id": "C24", "title": "Snowflake parse inverts nextId", "statement": "parse(id) returns the timestamp, node id and sequence the id was built from.", "quantifier": "every epoch, node id, sequence and 41-bit timestamp", "why_tests_cant": "2^63 ids", "anchors": ["collections/src/main/java/com/bytefacets/collections/id/Snowflake.java:parse", "collections/src/main/java/com/bytefacets/collections/id/Snowflake.java:nextId"]}
{"id": "C25", "title": "Snowflake detects a clock that runs backwards", "statement": "nextId throws IllegalStateException when the clock is behind the last issued timestamp and never issues an id with an earlier timestamp than one already issued.", "quantifier": "every sequence of clock readings", "why_tests_cant": "needs regressions at particular moments", "anchors": ["collections/src/main/java/com/bytefacets/collections/id/Snowflake.java:nextId", "collections/src/main/java/com/bytefacets/collections/id/Snowflake.java:waitNextMillis"]}
{"id": "C26", "title": "Snowflake ids from different nodes never collide", "statement": "Two generators with different node ids in 0..1023 never produce the same id, whatever their clocks do; node ids outside the range are rejected and generated node ids are always inside it.", "quantifier": "every pair of generators and histories", "why_tests_cant": "pairs of unbounded histories", "anchors": ["collections/src/main/java/com/bytefacets/collections/id/Snowflake.java:Snowflake", "collections/src/main/java/com/bytefacets/collections/id/Snowflake.java:createNodeId", "collections/src/main/java/com/bytefacets/collections/id/Snowflake.java:nextId"]}
{"id": "C27", "title": "IndexedSet membership", "statement": "containsKey(k) is true exactly when k was added (add/put) and not removed since, for every history of add, remove, removeAt, clear on an IndexedSet or IndexedMap, any initial capacity, any load factor in (0,1] and any hash function consistent with the key equality.", "quantifier": "every history, hash function, load factor, capacity", "why_tests_cant": "bucket collisions and resize points are unbounded", "anchors": ["collections/src/main/templates/com/bytefacets/collections/hash/BaseKeyIndex.ftl:add", "collections/src/main/templates/com/bytefacets/collections/hash/BaseKeyIndex.ftl:remove", "collections/src/main/templates/com/bytefacets/collections/hash/BaseKeyIndex.ftl:lookupEntry", "collections/src/main/templates/com/bytefacets/collections/hash/BaseKeyIndex.ftl:rehash"]}
{"id": "C28", "title": "IndexedSet size", "statement": "size() is the number of distinct keys currently in the collection and isEmpty() is size()==0.", "quantifier": "every history", "why_tests_cant": "unbounded histories", "anchors": ["collections/src/main/java/com/bytefacets/collections/hash/BaseHash.java:size", "collections/src/main/templates/com/bytefacets/collections/hash/BaseKeyIndex.ftl:add", "collections/src/main/templates/com/bytefacets/collections/hash/BaseKeyIndex.ftl:remove"]}
{"id": "C29", "title": "Entries are stable", "statement": "The entry returned by add(k) is returned by every later add(k)/lookupEntry(k) until k is removed, through any number of additions, removals of other keys and resizings.", "quantifier": "every history", "why_tests_cant": "needs all interleavings with rehash", "anchors": ["collections/src/main/templates/com/bytefacets/collections/hash/BaseKeyIndex.ftl:add", "collections/src/main/templates/com/bytefacets/collections/hash/BaseKeyIndex.ftl:rehash", "collections/src/main/templates/com/bytefacets/collections/hash/BaseKeyIndex.ftl:lookupEntry"]}
{"id": "C30", "title": "Entries identify keys one-to-one", "statement": "Distinct keys held at the same time have distinct entries; getKeyAt(lookupEntry(k)) equals k; lookupEntry(getKeyAt(e)) = e for each live entry e; lookupEntry returns -1 exactly for absent keys.", "quantifier": "every reachable state", "why_tests_cant": "unbounded histories", "anchors": ["collections/src/main/templates/com/bytefacets/collections/hash/BaseKeyIndex.ftl:getKeyAt", "collections/src/main/templates/com/bytefacets/collections/hash/BaseKeyIndex.ftl:lookupEntry"]}
{"id": "C31", "title": "Entries are 0-based, dense and reused", "statement": "A new key takes the most recently freed entry if any entry is free and otherwise the next never-used integer, so entries always lie in [0, peak number of entries in use); with any legal initial capacity and load factor.", "quantifier": "every history, capacity and load factor", "why_tests_cant": "depends on the interplay of free list and resize", "anchors": ["collections/src/main/templates/com/bytefacets/collections/hash/BaseKeyIndex.ftl:allocateNewEntry", "collections/src/main/templates/com/bytefacets/collections/hash/BaseKeyIndex.ftl:freeReservedEntry", "collections/src/main/templates/com/bytefacets/collections/hash/BaseKeyIndex.ftl:rehash"]}
{"id": "C32", "title": "Removal by key", "statement": "remove(k) returns the entry k had and removes only k, or returns -1 and changes nothing when k is absent.", "quantifier": "every reachable state and key", "why_tests_cant": "unbounded states", "anchors": ["collections/src/main/templates/com/bytefacets/collections/hash/BaseKeyIndex.ftl:remove"]}
{"id": "C33", "title": "Removal by entry", "statement": "removeAt(e) removes exactly the key at live entry e; for an entry within bounds that is not live it changes nothing.", "quantifier": "every reachable state and entry", "why_tests_cant": "depends on chain terminators and free-list links", "anchors": ["collections/src/main/templates/com/bytefacets/collections/hash/BaseKeyIndex.ftl:removeAt", "collections/src/main/templates/com/bytefacets/collections/hash/BaseKeyIndex.ftl:getHead"]}
{"id": "C34", "title": "Reserving an entry", "statement": "After removeAtAndReserve(e) the key is absent but getKeyAt(e)/getValueAt(e) still return the old key and value, and e is not handed out again until freeReservedEntry(e), after which it is the next entry to be reused.", "quantifier": "every history between reserve and free", "why_tests_cant": "unbounded histories in between", "anchors": ["collections/src/main/templates/com/bytefacets/collections/hash/BaseKeyIndex.ftl:removeAtAndReserve", "collections/src/main/templates/com/bytefacets/collections/hash/BaseKeyIndex.ftl:freeReservedEntry"]}
{"id": "C35", "title": "forEach visits each element exactly once", "statement": "forEach, forEachEntry and forEachValue present each live key/entry/value exactly once, in mutually consistent order.", "quantifier": "every reachable state", "why_tests_cant": "early exit by hit count depends on bucket layout", "anchors": ["collections/src/main/java/com/bytefacets/collections/hash/BaseHash.java:forEachEntry", "collections/src/main/templates/com/bytefacets/collections/hash/BaseKeyIndex.ftl:forEach", "collections/src/main/templates/com/bytefacets/collections/hash/KeyValueIndexedMap.ftl:forEachValue"]}
{"id": "C36", "title": "forEachEntry tolerates removal of the visited entry", "statement": "If the callback removes the entry it was just given (any subset of the entries), every entry that was live at the start is still visited exactly once and exactly the chosen ones are gone afterwards.", "quantifier": "every state and every choice of removals", "why_tests_cant": "2^n removal patterns", "anchors": ["collections/src/main/java/com/bytefacets/collections/hash/BaseHash.java:forEachEntry", "collections/src/main/templates/com/bytefacets/collections/hash/BaseKeyIndex.ftl:removeAt"]}
{"id": "C37", "title": "clear resets the collection", "statement": "After clear() the collection is observationally a new empty collection: size 0, no key found, entries handed out from 0 again, values default.", "quantifier": "every reachable state and every continuation", "why_tests_cant": "unbounded continuations", "anchors": ["collections/src/main/java/com/bytefacets/collections/hash/BaseHash.java:clear", "collections/src/main/templates/com/bytefacets/collections/hash/BaseKeyIndex.ftl:clearKeys", "collections/src/main/templates/com/bytefacets/collections/hash/KeyValueIndexedMap.ftl:clearValues"]}
{"id": "C38", "title": "copyFrom makes an equal, independent copy", "statement": "After dst.copyFrom(src), dst has exactly src's keys, entries and values whatever dst held before, future entry allocation agrees, and later changes to either do not affect the other.", "quantifier": "every pair of reachable states and continuation", "why_tests_cant": "pairs of unbounded states", "anchors": ["collections/src/main/templates/com/bytefacets/collections/hash/BaseKeyIndex.ftl:copyFrom", "collections/src/main/java/com/bytefacets/collections/hash/BaseHash.java:copyFrom", "collections/src/main/templates/com/bytefacets/collections/hash/KeyValueIndexedMap.ftl:copyFrom"]}
{"id": "C39", "title": "Iterator visits each entry exactly once", "statement": "Driving an EntryIterator with next() to exhaustion yields each live entry exactly once and then false.", "quantifier": "every reachable state, every number of calls up to 2^30", "why_tests_cant": "bucket layouts", "anchors": ["collections/src/main/java/com/bytefacets/collections/hash/BaseHash.java:IteratorImpl.next"]}
{"id": "C40", "title": "Iterator.remove removes the current entry and iteration continues", "statement": "Calling remove() after any subset of the next() calls removes exactly those entries, and the remaining entries are still visited exactly once.", "quantifier": "every state and removal pattern, up to 2^30 calls on the iterator", "why_tests_cant": "2^n patterns", "anchors": ["collections/src/main/java/com/bytefacets/collections/hash/BaseHash.java:IteratorImpl.remove"]}
{"id": "C41", "title": "Iterator fails fast", "statement": "If the collection is structurally modified other than through the iterator, the iterator's next call of next() or remove() throws ConcurrentModificationException.", "quantifier": "every history of modifications between iterator calls; up to 2^30 calls on the iterator", "why_tests_cant": "needs modification-counter coincidences", "anchors": ["collections/src/main/java/com/bytefacets/collections/hash/BaseHash.java:IteratorImpl.next", "collections/src/main/java/com/bytefacets/collections/hash/BaseHash.java:clear"]}
{"id": "C42", "title": "Floating-point keys", "statement": "0.0 and -0.0 are the same key in Double/Float sets; a NaN key is never found.", "quantifier": "all bit patterns and histories", "why_tests_cant": "hash and equality disagree on zeros unless the mask hides it", "anchors": ["collections/src/main/java/com/bytefacets/collections/types/DoubleType.java:HashImpl", "collections/src/main/java/com/bytefacets/collections/types/DoubleType.java:EqImpl", "collections/src/main/templates/com/bytefacets/collections/hash/BaseKeyIndex.ftl:computeHead"]}
{"id": "C43", "title": "Map get returns the last value put", "statement": "get(k) returns the value of the latest put(k,.)/putValueAt(entry of k,.), throws KeyNotFoundException exactly when k is absent; getOrDefault returns the default exactly when k is absent.", "quantifier": "every history", "why_tests_cant": "unbounded histories", "anchors": ["collections/src/main/templates/com/bytefacets/collections/hash/KeyValueIndexedMap.ftl:get", "collections/src/main/templates/com/bytefacets/collections/hash/KeyValueIndexedMap.ftl:put", "collections/src/main/templates/com/bytefacets/collections/hash/KeyValueIndexedMap.ftl:putValueAt", "collections/src/main/templates/com/bytefacets/collections/hash/KeyValueIndexedMap.ftl:getOrDefault"]}
{"id": "C44", "title": "Map add gives new keys the default value and leaves existing values alone", "statement": "add(k) on an absent key associates the type default (never a value left over from an earlier occupant of the entry); on a present key it changes nothing.", "quantifier": "every history", "why_tests_cant": "stale values depend on entry reuse", "anchors": ["collections/src/main/templates/com/bytefacets/collections/hash/KeyValueIndexedMap.ftl:add", "collections/src/main/templates/com/bytefacets/collections/hash/KeyValueIndexedMap.ftl:removeValue"]}
{"id": "C45", "title": "HydraDeque is a family of independent deques", "statement": "For every sequence of operations on a HydraDeque each list id behaves as its own ideal double-ended list: add/remove at either end of one list returns what the ideal list would and never affects another list.", "quantifier": "every history over every set of list ids", "why_tests_cant": "shared storage and free-list reuse across lists", "anchors": ["collections/src/main/templates/com/bytefacets/collections/queue/KeyHydraDeque.ftl:addFirst", "collections/src/main/templates/com/bytefacets/collections/queue/KeyHydraDeque.ftl:addLast", "collections/src/main/templates/com/bytefacets/collections/queue/KeyHydraDeque.ftl:removeFirst", "collections/src/main/templates/com/bytefacets/collections/queue/KeyHydraDeque.ftl:removeLast"]}
{"id": "C46", "title": "HydraDeque sizes and errors", "statement": "size() is the sum of the list lengths, size(id) the length of list id (0 for unknown ids), removal from an empty or unknown list throws NoSuchElementException and changes nothing.", "quantifier": "every reachable state", "why_tests_cant": "unbounded histories", "anchors": ["collections/src/main/templates/com/bytefacets/collections/queue/KeyHydraDeque.ftl:size", "collections/src/main/templates/com/bytefacets/collections/queue/KeyHydraDeque.ftl:validateListAndGetFirstEntry"]}
{"id": "C47", "title": "HydraDeque iterators", "statement": "iterator(id) yields list id front to back and reverseIterator(id) the exact reverse.", "quantifier": "every reachable state", "why_tests_cant": "prev/next consistency across reuse of entries", "anchors": ["collections/src/main/templates/com/bytefacets/collections/queue/KeyHydraDeque.ftl:ForwardIterator", "collections/src/main/templates/com/bytefacets/collections/queue/KeyHydraDeque.ftl:ReverseIterator"]}
{"id": "C48", "title": "HydraDeque storage is reused", "statement": "An added value takes the most recently freed entry if one is free, otherwise the next unused one, so entries stay below the peak number of simultaneously stored values, also across clear().", "quantifier": "every history", "why_tests_cant": "free-list encoding in negative numbers", "anchors": ["collections/src/main/templates/com/bytefacets/collections/queue/KeyHydraDeque.ftl:allocateEntry", "collections/src/main/templates/com/bytefacets/collections/queue/KeyHydraDeque.ftl:addToFreeList", "collections/src/main/templates/com/bytefacets/collections/queue/KeyHydraDeque.ftl:clear"]}
{"id": "C49", "title": "Heap peek is a minimum", "statement": "peek() returns a live entry whose key no other live key precedes in the comparator's order, and throws exactly when the heap is empty.", "quantifier": "every history of insert, removeAt, resetKey, setComparator, clear; every total preorder comparator", "why_tests_cant": "all shapes and orders", "anchors": ["collections/src/main/templates/com/bytefacets/collections/heap/BaseKeyHeap.ftl:insert", "collections/src/main/templates/com/bytefacets/collections/heap/BaseKeyHeap.ftl:removeAt", "collections/src/main/templates/com/bytefacets/collections/heap/BaseKeyHeap.ftl:filterUp", "collections/src/main/templates/com/bytefacets/collections/heap/BaseKeyHeap.ftl:filterDown", "collections/src/main/java/com/bytefacets/collections/heap/BaseHeap.java:peek"]}
{"id": "C50", "title": "Heap entries are stable handles", "statement": "getKeyAt/getValueAt of the entry returned by insert give the inserted (or last reset) key and value until that entry is removed, regardless of other operations and growth; live entries are distinct.", "quantifier": "every history", "why_tests_cant": "entry/position permutation tracking", "anchors": ["collections/src/main/templates/com/bytefacets/collections/heap/BaseKeyHeap.ftl:allocateEntry", "collections/src/main/templates/com/bytefacets/collections/heap/BaseKeyHeap.ftl:getKeyAt", "collections/src/main/templates/com/bytefacets/collections/heap/KeyValueHeap.ftl:insert"]}
{"id": "C51", "title": "Draining a heap sorts", "statement": "Repeatedly taking peek() and removing it yields all live keys in non-decreasing comparator order, each exactly once.", "quantifier": "every reachable heap", "why_tests_cant": "all shapes", "anchors": ["collections/src/main/templates/com/bytefacets/collections/heap/BaseKeyHeap.ftl:removeAt", "collections/src/main/java/com/bytefacets/collections/heap/BaseHeap.java:peek"]}
{"id": "C52", "title": "Heap resetKey and setComparator keep the order", "statement": "After resetKey on a live entry or setComparator with any total preorder, peek is again a minimum and all other entries keep their keys and values.", "quantifier": "every reachable heap", "why_tests_cant": "all shapes", "anchors": ["collections/src/main/templates/com/bytefacets/collections/heap/BaseKeyHeap.ftl:resetKey", "collections/src/main/templates/com/bytefacets/collections/heap/BaseKeyHeap.ftl:setComparator"]}
{"id": "C53", "title": "Heap removeAt rejects entries that are not active", "statement": "removeAt(e) throws RangeCheckException for e outside the backing array and InvalidEntryException for any e inside it that is not active, changing nothing.", "quantifier": "every reachable heap and entry", "why_tests_cant": "needs never-allocated entries of a non-empty heap", "anchors": ["collections/src/main/templates/com/bytefacets/collections/heap/BaseKeyHeap.ftl:removeAt", "collections/src/main/java/com/bytefacets/collections/heap/BaseHeap.java:isValidEntry"]}
{"id": "C54", "title": "Heap forEachEntry and isValidEntry report exactly the live entries", "statement": "forEachEntry presents every live entry exactly once and isValidEntry(e) is true exactly for live entries.", "quantifier": "every reachable heap", "why_tests_cant": "needs holes in the entry range", "anchors": ["collections/src/main/java/com/bytefacets/collections/heap/BaseHeap.java:forEachEntry", "collections/src/main/java/com/bytefacets/collections/heap/BaseHeap.java:isValidEntry"]}
{"id": "C55", "title": "Heap clear restores defaults", "statement": "After clear() the heap is empty, and a subsequent insert(key) without value has the default value.", "quantifier": "every reachable heap and continuation", "why_tests_cant": "needs clear with freed entries", "anchors": ["collections/src/main/templates/com/bytefacets/collections/heap/BaseKeyHeap.ftl:clear", "collections/src/main/templates/com/bytefacets/collections/heap/KeyValueHeap.ftl:clearValues"]}
{"id": "C56", "title": "CompanionSort sorts", "statement": "After sort(pri, sec, off, len, cmp) the range off..off+len-1 of pri is in non-decreasing comparator order, for every total preorder.", "quantifier": "all arrays, ranges, comparators", "why_tests_cant": "all permutations and pivot choices", "anchors": ["collections/src/main/templates/com/bytefacets/collections/sort/KeyValueCompanionSort.ftl:sort", "collections/src/main/templates/com/bytefacets/collections/sort/KeyValueCompanionSort.ftl:med3"]}
{"id": "C57", "title": "CompanionSort applies one permutation to both arrays", "statement": "The pairs (pri[i], sec[i]) in the range are a permutation of the original pairs, for any comparator with compare(v,v)=0; the sort terminates.", "quantifier": "all arrays, ranges, comparators", "why_tests_cant": "all permutations", "anchors": ["collections/src/main/templates/com/bytefacets/collections/sort/KeyValueCompanionSort.ftl:swap", "collections/src/main/templates/com/bytefacets/collections/sort/KeyValueCompanionSort.ftl:vecswap"]}
{"id": "C58", "title": "CompanionSort touches only its range and validates it", "statement": "Elements outside off..off+len-1 of both arrays are unchanged; ranges exceeding either array or negative are rejected with IllegalArgumentException before any change.", "quantifier": "all arrays and ranges", "why_tests_cant": "all ranges including overflow", "anchors": ["collections/src/main/templates/com/bytefacets/collections/sort/KeyValueCompanionSort.ftl:sort"]}
{"id": "C59", "title": "Associations form a set of pairs", "statement": "contains(l,r), size(), lookupEntry(l,r), put and remove on CompactOneToMany/CompactManyToMany agree with an ideal set of (left,right) pairs, and getLeftAt/getRightAt of an entry return its pair.", "quantifier": "every history with non-negative keys", "why_tests_cant": "unbounded histories", "anchors": ["collections/src/main/java/com/bytefacets/collections/bi/CompactOneToMany.java:put", "collections/src/main/java/com/bytefacets/collections/bi/CompactOneToMany.java:remove", "collections/src/main/java/com/bytefacets/collections/bi/CompactOneToMany.java:contains"]}
{"id": "C60", "title": "Navigating from a left key", "statement": "withLeft(l) iterates exactly the right keys (and entries) currently associated with l, each once.", "quantifier": "every history with non-negative keys, every initial size", "why_tests_cant": "linked lists through shared arrays, growth points", "anchors": ["collections/src/main/java/com/bytefacets/collections/bi/Side.java:insertEntry", "collections/src/main/java/com/bytefacets/collections/bi/Side.java:removeEntry", "collections/src/main/java/com/bytefacets/collections/bi/Mapping.java:forEachValue"]}
{"id": "C61", "title": "Navigating from a right key", "statement": "withRight(r) iterates exactly the left keys currently associated with r, each once, consistently with withLeft.", "quantifier": "every history with non-negative keys, every initial size", "why_tests_cant": "both sides must stay mutually consistent", "anchors": ["collections/src/main/java/com/bytefacets/collections/bi/CompactManyToMany.java:withRight", "collections/src/main/java/com/bytefacets/collections/bi/Side.java:insertEntry"]}
{"id": "C62", "title": "Association counts", "statement": "withLeft(l).count() (and withRight(r).count()) equals the number of associations of that key.", "quantifier": "every history", "why_tests_cant": "unbounded histories", "anchors": ["collections/src/main/java/com/bytefacets/collections/bi/Side.java:count", "collections/src/main/java/com/bytefacets/collections/bi/Side.java:removeEntry"]}
{"id": "C63", "title": "Unknown keys have no associations", "statement": "Iterating entries or values of, or counting, a non-negative key that was never associated yields nothing and does not throw.", "quantifier": "every state and key", "why_tests_cant": "depends on array length versus key", "anchors": ["collections/src/main/java/com/bytefacets/collections/bi/Side.java:EntryIterator.reset", "collections/src/main/java/com/bytefacets/collections/bi/Side.java:ValueIterator.reset"]}
{"id": "C64", "title": "A rejected put leaves no trace", "statement": "If put throws (for example for a negative key), the collection is unchanged.", "quantifier": "every state and key pair", "why_tests_cant": "partial updates on exceptions", "anchors": ["collections/src/main/java/com/bytefacets/collections/bi/CompactOneToMany.java:put", "collections/src/main/java/com/bytefacets/collections/bi/Side.java:insertEntry"]}
{"id": "C65", "title": "Vector retains no stale references", "statement": "After any history of append, ensureSize and clear on a reference-typed Vector, every cell of the backing array at or above size() holds the type default: cleared elements are never kept alive.", "quantifier": "every history of vector operations and every initial capacity", "why_tests_cant": "The claim ranges over all histories and all capacities; a test inspects a few.", "anchors": ["collections/src/main/templates/com/bytefacets/collections/vector/KeyVector.ftl: clear, append, ensureSize"]}
{"id": "C66", "title": "A binary write that does not fit changes nothing", "statement": "If a value does not fit in the byte array at the requested non-negative position, the write throws and leaves every byte of the array as it was, in both byte orders.", "quantifier": "every value, width, position and array", "why_tests_cant": "ranges over all positions relative to the end of the array and all array contents", "anchors": ["collections/src/main/java/com/bytefacets/collections/types/IntType.java: writeBE, writeLE"]}
{"id": "C67", "title": "Boolean comparators are opposite total orders", "statement": "The ascending and descending boolean comparators are total orders, mirror images of each other, and the null-aware/equality predicates agree with them.", "quantifier": "all booleans", "why_tests_cant": "order laws relate every pair and triple", "anchors": ["collections/src/main/java/com/bytefacets/collections/types/BoolType.java: Asc, Desc"]}
{"id": "C68", "title": "HydraDeque retains no stale references", "statement": "After any history of additions, removals and clear on a HydraDeque, every cell of its value storage that does not hold a current value holds the type default, and every current value occupies exactly one cell.", "quantifier": "every history of operations on any number of lists, every initial capacity", "why_tests_cant": "Entries are recycled through a free list shared by all lists; which cells are idle depends on the whole interleaving.", "anchors": ["collections/src/main/templates/com/bytefacets/collections/queue/KeyHydraDeque.ftl: removeFirst, removeLast, clear"]}
{"id": "C69", "title": "Array helpers create, fill and resize exactly", "statement": "create(size) returns size default cells; create(size, v) returns size cells all equal to v; fill(array, v) sets every cell and fill(array, v, from, length) exactly the section; resize(array, n) returns n cells keeping every cell that fits and defaulting the rest.", "quantifier": "every array, size, offset, length and value, of every element type", "why_tests_cant": "ranges over all sizes, sections and values, including values the type's equality confuses with the default", "anchors": ["collections/src/main/templates/com/bytefacets/collections/arrays/KeyArray.ftl: create, fill, resize"]}
{"id": "C70", "title": "Reference equality predicates are null-safe value equality", "statement": "The equality functions of StringType and GenericType return true exactly when both arguments are null or both are non-null and equal by value, and never throw.", "quantifier": "every pair of references including nulls and distinct references with equal contents", "why_tests_cant": "ranges over all pairs of references and all contents", "anchors": ["collections/src/main/java/com/bytefacets/collections/types/StringType.java: EqImpl", "collections/src/main/java/com/bytefacets/collections/types/GenericType.java: EqImpl"]}
{"id": "C71", "title": "Heap insertion grows the heap or reports that it cannot", "statement": "insert fails only with ResizeException, only when the heap is full and its capacity cannot be doubled, and then changes nothing; otherwise it returns an entry, the size grows by one and the capacity stays (a cell is free) or doubles up to 2^29 (none is), never shrinking.", "quantifier": "every reachable heap and initial capacity", "why_tests_cant": "needs capacities near 2^29 and all full heaps", "anchors": ["collections/src/main/templates/com/bytefacets/collections/heap/BaseKeyHeap.ftl:allocateEntry", "collections/src/main/java/com/bytefacets/collections/heap/BaseHeap.java:calculateNewCapacity", "collections/src/main/java/com/bytefacets/collections/heap/BaseHeap.java:growHeap"]}
{"id": "C72", "title": "Editing a two-sided collection while iterating it", "statement": "While an entry or value iterator of withLeft/withRight is in use, associations may be put and removed: the iterator then hands out exactly its remaining associations that are still held, in the same order, and ends.", "quantifier": "every reachable collection, iterator position and edit", "why_tests_cant": "ranges over all interleavings of edits and iteration", "anchors": ["collections/src/main/java/com/bytefacets/collections/bi/Side.java:EntryIterator", "collections/src/main/java/com/bytefacets/collections/bi/Side.java:ValueIterator", "collections/src/main/java/com/bytefacets/collections/bi/Side.java:removeEntry"]}
{"id": "C73", "title": "Double comparators order numbers by value", "statement": "For any two doubles that are not NaN (finite, subnormal, zero or infinite) the ascending and descending double comparators return the sign of the numerical comparison, and the absolute comparators that of the magnitudes; zero is returned only for the same double or the two zeros.", "quantifier": "all pairs of 2^64 bit patterns that are not NaN", "why_tests_cant": "the comparator rounds a difference; only an argument about rounding excludes a zero or wrong sign for some pair", "anchors": ["collections/src/main/java/com/bytefacets/collections/types/DoubleType.java: Asc, Desc, AbsAsc, AbsDesc, comparatorFor"]}
{"id": "C74", "title": "Double comparators are total orders on all doubles", "statement": "Including NaN, the double comparators are transitive and total, so sorting or heap order is defined for any double.", "quantifier": "all triples of doubles including NaN", "why_tests_cant": "needs a triple with NaN in the middle", "anchors": ["collections/src/main/java/com/bytefacets/collections/types/DoubleType.java: Asc"]}
{"id": "C75", "title": "Float comparators are total orders on all floats", "statement": "The float comparators order numbers by value (absolute ones by magnitude), put -0.0 before 0.0 and NaN last, and are zero only for identical floats or two NaNs.", "quantifier": "all pairs and triples of float bit patterns", "why_tests_cant": "2^96 triples", "anchors": ["collections/src/main/java/com/bytefacets/collections/types/FloatType.java: Asc, Desc, AbsAsc, AbsDesc"]}
{"id": "C76", "title": "Floating-point predicates are the numerical relations", "statement": "EQ, NEQ, LT, LTE, GT, GTE of double and float are the numerical relations on numbers, false (NEQ: true) with NaN, and agree with the double comparator on numbers.", "quantifier": "all pairs of bit patterns", "why_tests_cant": "all pairs of values incl. NaN, infinities, zeros", "anchors": ["collections/src/main/java/com/bytefacets/collections/types/DoubleType.java: predicateFor", "collections/src/main/java/com/bytefacets/collections/types/FloatType.java: predicateFor"]}
{"id": "C77", "title": "EqEpsilon is an equality up to 1e-10", "statement": "EqEpsilon holds exactly for doubles closer than 1e-10, is an equivalence usable as key equality, and agrees with the type's hash.", "quantifier": "all pairs and triples of doubles", "why_tests_cant": "boundary of the tolerance and non-transitive triples", "anchors": ["collections/src/main/java/com/bytefacets/collections/types/DoubleType.java: EqEpsilon"]}
{"id": "C78", "title": "Casts to int and back preserve values", "statement": "castToInt after castToX (X wider than int) and castToX after castToInt (X narrower) give the value back; narrowing keeps exactly the values of the target type; through float exactly the ints with at most 24 significant bits come back, and Integer.MAX_VALUE.", "quantifier": "all values of each type", "why_tests_cant": "2^32 ints per type; float precision fails only above 2^24", "anchors": ["collections/src/main/java/com/bytefacets/collections/types/*Type.java: castToInt, castToByte, castToShort, castToChar, castToLong, castToFloat, castToDouble, castToBool"]}
{"id": "C79", "title": "convert and unbox preserve values", "statement": "convert(box(v)) and unbox(box(v)) give v back; convert of any Number gives the same numerical value if the target type has it, and conversions from float and double truncate toward zero, saturate at the ends of the int and long ranges and take NaN to 0; null gives the default; unknown classes are rejected.", "quantifier": "all objects of the boxed classes, all target types", "why_tests_cant": "6 source classes with up to 2^64 values times 8 targets", "anchors": ["collections/src/main/java/com/bytefacets/collections/types/*Type.java: convert, unbox, box"]}
{"id": "C80", "title": "Text round trip", "statement": "Formatting a value as text and parsing it gives the value back; a text parses as an integer exactly if it is an optional sign followed by at least one decimal digit and its value is in range, and the result is that value; everything else is rejected, never truncated.", "quantifier": "all values of byte, short, int, long, char, boolean; all texts of ASCII characters", "why_tests_cant": "unbounded set of texts", "anchors": ["collections/src/main/java/com/bytefacets/collections/types/*Type.java: parseString, convert", "collections/src/main/java/com/bytefacets/collections/types/StringType.java: castToString, castToInt, convert"]}
{"id": "C81", "title": "String predicates follow the string order with nulls last", "statement": "EQ..GTE of StringType never throw and agree with String.compareTo on non-null strings, null coming after every string.", "quantifier": "all pairs of possibly-null strings", "why_tests_cant": "needs null on the second operand and equal strings at distinct references", "anchors": ["collections/src/main/java/com/bytefacets/collections/types/StringType.java: IS_LT, IS_GT, IS_LTE, IS_GTE, predicateFor"]}
{"id": "C82", "title": "Timeout manager fires exactly what is due", "statement": "For every schedule of addNewItem, acknowledge and rounds of the manager, a timeout is reported only for an item added and neither acknowledged nor reported before, only once its deadline has passed on the clock, earliest deadline first; a round leaves no overdue item; the delay it returns is the time to the earliest deadline left (100 if none).", "quantifier": "all interleavings of the three threads' calls, all clocks (also ones running backwards), all deadlines, up to 2^29 items", "why_tests_cant": "schedules and clock readings are unbounded, handles are reused", "anchors": ["examples/src/main/java/com/bytefacets/collections/heap/TimeoutExample.java: TimeoutManager", "collections/src/main/templates/com/bytefacets/collections/heap/KeyValueHeap.ftl"]}
{"id": "C83", "title": "A timeout is reported exactly once", "statement": "An item is never reported before it is added, at most once, and only after its deadline; if it is never acknowledged and a round sees the clock past its deadline it is reported exactly once.", "quantifier": "all schedules, clocks and items", "why_tests_cant": "exactly-once over unbounded histories with handle reuse", "anchors": ["examples/src/main/java/com/bytefacets/collections/heap/TimeoutExample.java: TimeoutManager.process, reportTimeout"]}
{"id": "C84", "title": "An acknowledgement cancels its own item and no other", "statement": "Acknowledging the handle returned for an item cancels that item's timeout if it is pending, and otherwise does not affect any other item.", "quantifier": "all schedules, in particular acknowledgements racing with the timeout", "why_tests_cant": "needs the acknowledgement to arrive after the timeout and after the handle is reused", "anchors": ["examples/src/main/java/com/bytefacets/collections/heap/TimeoutExample.java: acknowledge", "collections/src/main/templates/com/bytefacets/collections/heap/BaseKeyHeap.ftl: removeAt"]}
{"id": "C85", "title": "Inverted index finds exactly the orders added with a term", "statement": "For every history of add, count and iterate on the inverted index of the examples, count(term) is the number of different orders added with that symbol or strategy, and iterate(term) visits each of them exactly once, most recently associated first; an unknown term has none.", "quantifier": "all histories of calls, all order ids and terms (also null), up to about 2^28 additions", "why_tests_cant": "histories are unbounded; the structure behaves differently once its arrays must grow", "anchors": ["examples/src/main/java/com/bytefacets/collections/bi/InvertedIndexExample.java: InvertedIndex", "collections/src/main/java/com/bytefacets/collections/bi/CompactOneToMany.java"]}
{"id": "C86", "title": "School register reports exactly the enrolments", "statement": "For every history of updateClass, enroll and the two prints on the school of the examples: a student is listed under a class, and the class under the student, exactly if enrolled after the class was offered, once each; counts agree with the lists; the teacher shown is the last one set; an enrolment in a class not offered changes nothing.", "quantifier": "all histories of calls, all names (also null), up to about 2^29 calls", "why_tests_cant": "histories are unbounded; the structure behaves differently once its arrays must grow", "anchors": ["examples/src/main/java/com/bytefacets/collections/bi/ManyToManyExample.java: School", "collections/src/main/java/com/bytefacets/collections/bi/CompactManyToMany.java"]}
{"id": "C87", "title": "String orders, equality and hash", "statement": "On non-null strings Ascending and Descending are dictionary order by UTF-16 character and its reverse, the Absolute methods the same on case-folded texts, with result 0 exactly for equal (folded) texts; the six predicates agree with that order; EqImpl is equality of texts, and equal strings (also null) have equal hashes.", "quantifier": "all pairs of strings, same reference or not, all case tables", "why_tests_cant": "total order and hash coherence range over all pairs and triples of texts", "anchors": ["collections/src/main/java/com/bytefacets/collections/types/StringType.java: Asc, Desc, AscInsensitive, DescInsensitive, comparatorFor, predicateFor, EqImpl, HashImpl"]}
{"id": "C88", "title": "Snowflake waits only for an exhausted millisecond", "statement": "nextId reads the clock once and does not wait unless 4096 ids were already issued in the millisecond the clock shows; then it returns at the first different reading. In a new millisecond 4096 ids are issued without waiting, with sequence numbers 0 to 4095 in order.", "quantifier": "every generator state and every sequence of clock readings", "why_tests_cant": "depends on every pattern of clock readings and on the 4096th id of a millisecond", "anchors": ["collections/src/main/java/com/bytefacets/collections/id/Snowflake.java: nextId, waitNextMillis"]}
{"id": "C89", "title": "Integer dates and times are validated", "statement": "toLocalDate accepts an int exactly if it is yyyymmdd of an existing date from year 0 on and returns that date; toLocalTime accepts exactly hhmmss of an existing time; everything else throws DateTimeException; fromSqlDate agrees with fromLocalDate.", "quantifier": "all ints, all dates", "why_tests_cant": "2^32 inputs with leap-year and sign cases", "anchors": ["collections/src/main/java/com/bytefacets/collections/types/IntType.java: toLocalDate, toLocalTime, fromSqlDate"]}
{"id": "C90", "title": "forEach of a deque with a consumer that changes the deque", "statement": "forEach hands out the values front to back as they are at that moment: values the consumer appends are handed out later in the same walk, values removed behind the walk do not disturb it, and the deque ends up as the consumer's calls say.", "quantifier": "every reachable deque, every consumer (a function of all values handed out so far to further calls)", "why_tests_cant": "unbounded consumers and histories; the walk runs over a circular array that the calls may rearrange", "anchors": ["collections/src/main/templates/com/bytefacets/collections/queue/KeyDeque.ftl:forEach"]}
{"id": "C91", "title": "forEach of a vector with a consumer that changes the vector", "statement": "forEach hands out at each index the value the vector holds there at that moment, until the index reaches the size the vector then has, whatever the consumer does.", "quantifier": "every reachable vector, every consumer", "why_tests_cant": "unbounded consumers and histories, growth during the walk", "anchors": ["collections/src/main/templates/com/bytefacets/collections/vector/KeyVector.ftl:forEach"]}
{"id": "C92", "title": "HydraDeque iterators under modification", "statement": "An iterator of a list of a HydraDeque hands out the values of that list in order although lists, including this one, are changed between the calls, and ends after the last value.", "quantifier": "every reachable HydraDeque, every sequence of calls between the calls of the iterator", "why_tests_cant": "unbounded interleavings; entries are shared by all lists and reused", "anchors": ["collections/src/main/templates/com/bytefacets/collections/queue/KeyHydraDeque.ftl:iterator"]}
{"id": "C93", "title": "forEach of an indexed collection with a consumer that changes it", "statement": "forEachEntry, forEach and forEachValue with a consumer that calls back into the collection visit every entry exactly once, hand out what the entry holds at that moment, and leave the collection as the calls say.", "quantifier": "every reachable indexed set or map, every consumer", "why_tests_cant": "unbounded consumers and histories; which entries share a chain depends on hash and capacity", "anchors": ["collections/src/main/java/com/bytefacets/collections/hash/BaseHash.java:forEachEntry", "collections/src/main/templates/com/bytefacets/collections/hash/BaseKeyIndex.ftl:forEach", "collections/src/main/templates/com/bytefacets/collections/hash/KeyValueIndexedMap.ftl:forEachValue"]}
{"id": "C94", "title": "An iterator works until the collection changes size behind its back", "statement": "Between calls on an indexed set or map, the calls of an iterator of it behave like a cursor over the entries as long as the number of entries is changed by nothing but the iterator itself; after any other change of the number of entries, next and remove throw ConcurrentModificationException and change nothing, until iterator() is called again. The collection keeps answering correctly throughout.", "quantifier": "every reachable indexed set or map, every interleaving of up to 2^30 calls on the collection and on the iterator", "why_tests_cant": "unbounded interleavings; the walk order depends on hash, capacity and history", "anchors": ["collections/src/main/java/com/bytefacets/collections/hash/BaseHash.java:IteratorImpl"]}
{"id": "C95", "title": "forEachEntry of a heap with a consumer that changes the heap", "statement": "forEachEntry with a consumer that calls back into the heap presents every entry that is live when its turn comes exactly once, and leaves the heap as the calls say.", "quantifier": "every reachable heap, every consumer", "why_tests_cant": "unbounded consumers and histories", "anchors": ["collections/src/main/java/com/bytefacets/collections/heap/BaseHeap.java:forEachEntry"]}
{"id": "C96", "title": "How often a heap compares", "statement": "With n entries in the heap an insertion calls the comparator at most log2(n+1) times, removeAt of a live entry at most 3*log2(n-1), resetKey at most 3*log2(n), setComparator at most n*log2(n) (not at all if it is the comparator already set), containsKey and getFirstEntry at most n times, and no other call compares keys.", "quantifier": "every history, every comparator (even one that is no order), every call", "why_tests_cant": "the bound is over all shapes of the heap and all outcomes of the comparisons", "anchors": ["collections/src/main/templates/com/bytefacets/collections/heap/BaseKeyHeap.ftl:insert", "collections/src/main/templates/com/bytefacets/collections/heap/BaseKeyHeap.ftl:removeAt", "collections/src/main/templates/com/bytefacets/collections/heap/BaseKeyHeap.ftl:resetKey", "collections/src/main/templates/com/bytefacets/collections/heap/BaseKeyHeap.ftl:setComparator", "collections/src/main/templates/com/bytefacets/collections/heap/BaseKeyHeap.ftl:filterUp", "collections/src/main/templates/com/bytefacets/collections/heap/BaseKeyHeap.ftl:filterDown"]}
{"id": "C97", "title": "A comparison that throws leaves the heap as it was", "statement": "If the comparator throws during a call (a null key with Asc, for instance), the exception is passed on and the heap behaves as if the call had not been made; if it throws in no call, all results are those of the specification.", "quantifier": "every history, every comparator that may throw", "why_tests_cant": "the exception can come from any comparison of any call in any heap", "anchors": ["collections/src/main/templates/com/bytefacets/collections/heap/BaseKeyHeap.ftl:insert", "collections/src/main/templates/com/bytefacets/collections/heap/BaseKeyHeap.ftl:removeAt", "collections/src/main/templates/com/bytefacets/collections/heap/BaseKeyHeap.ftl:getFirstEntry"]}
{"id": "C98", "title": "CompanionSort with a comparator that has side effects or changes its answers", "statement": "Whatever the comparator does (answer differently each time, keep a state of its own, throw), sort leaves a permutation of the original pairs in the range and everything else untouched, and it can only return, pass on the comparator's exception, or overflow the stack. If the answers depend on the keys only, other effects of the comparator do not influence the result.", "quantifier": "all arrays, ranges, stateful comparators and stack sizes", "why_tests_cant": "the answers of such a comparator are an arbitrary sequence", "anchors": ["collections/src/main/templates/com/bytefacets/collections/sort/KeyValueCompanionSort.ftl:sort", "collections/src/main/templates/com/bytefacets/collections/sort/KeyValueCompanionSort.ftl:med3", "collections/src/main/templates/com/bytefacets/collections/sort/KeyValueCompanionSort.ftl:vecswap"]}
{"id": "C99", "title": "How often CompanionSort compares", "statement": "Sorting n >= 1 keys calls the comparator at most 3(n-1) times per level of nested calls, for any comparator at all, and at most 3n(n-1)/2 times altogether if its answers depend on the keys only and compare(x,x)=0.", "quantifier": "all arrays, ranges, comparators", "why_tests_cant": "all permutations and pivot choices", "anchors": ["collections/src/main/templates/com/bytefacets/collections/sort/KeyValueCompanionSort.ftl:sort", "collections/src/main/templates/com/bytefacets/collections/sort/KeyValueCompanionSort.ftl:med3"]}
{"id": "C100", "title": "CompanionSort of one array passed twice", "statement": "sort(a, a, off, len, cmp), with the same array as primary and companion, sorts that array: the range is in order and holds the original values, the rest is untouched.", "quantifier": "all arrays, ranges, comparators that order the keys", "why_tests_cant": "all permutations; aliasing of the two arrays", "anchors": ["collections/src/main/templates/com/bytefacets/collections/sort/KeyValueCompanionSort.ftl:sort", "collections/src/main/templates/com/bytefacets/collections/sort/KeyValueCompanionSort.ftl:swap"]}
{"id": "C101", "title": "A collection copied from itself", "statement": "m.copyFrom(m), on an indexed collection with a capacity below the maximum, changes nothing: every later call returns what it would have returned, iterations keep their order. Iterators made before it throw ConcurrentModificationException.", "quantifier": "every reachable collection, every later history, every iterator state within 2^30 calls on the iterator", "why_tests_cant": "source and destination arrays are the same objects; every array and every continuation would have to be compared", "anchors": ["collections/src/main/java/com/bytefacets/collections/hash/BaseHash.java:141-161 copyFrom", "collections/src/main/templates/com/bytefacets/collections/hash/BaseKeyIndex.ftl:27-41 copyFrom", "collections/src/main/templates/com/bytefacets/collections/hash/KeyValueIndexedMap.ftl:43-53 copyFrom"]}
{"id": "C102", "title": "How far an indexed collection grows", "statement": "An indexed collection starts with the next power of two of the requested capacity; no call makes the capacity smaller or more than doubles it; and after any history either the capacity is still the initial one, or capacity * loadFactor is less than twice the largest number of entries that were ever in use at once (plus 29 entries if the initial capacity * loadFactor was below 1/2), however many keys were added and removed.", "quantifier": "every hash and equality function, initial capacity, load factor, history of calls within the documented use", "why_tests_cant": "a bound over all histories; slow growth under churn only shows in long runs of particular shapes", "anchors": ["collections/src/main/java/com/bytefacets/collections/hash/BaseHash.java insertIntoFreeEntry, growKeys, resetSizeThreshold", "collections/src/main/templates/com/bytefacets/collections/hash/BaseKeyIndex.ftl lookupOrAdd"]}
{"id": "C103", "title": "The id generator is determined by its clock", "statement": "Every outcome of nextId follows from the readings of the clock, the node id and the ids issued before: a reading earlier than the last id's timestamp is refused with IllegalStateException and uses up nothing, a later one gives sequence number 0, the same one the next sequence number, and after 4096 ids in a millisecond the call waits for the first different reading.", "quantifier": "every node id, epoch, clock (also one that stands still or jumps back) and number of calls, for timestamps within 41 bits", "why_tests_cant": "the behaviour ranges over all infinite clock histories; the branch after 4096 ids in one millisecond is rarely reached", "anchors": ["collections/src/main/java/com/bytefacets/collections/id/Snowflake.java:nextId", "collections/src/main/java/com/bytefacets/collections/id/Snowflake.java:waitNextMillis"]}
{"id": "C104", "title": "An exhausted iterator stays exhausted", "statement": "Once next() of an EntryIterator has returned false, and as long as the collection is not changed and the iterator not reset, next() keeps returning false and changes nothing.", "quantifier": "every reachable set or map, every use of the iterator before, every number of calls afterwards", "why_tests_cant": "the counter behind it advances at every call; a test would need 2^31 calls", "anchors": ["collections/src/main/java/com/bytefacets/collections/hash/BaseHash.java:IteratorImpl.nextHead", "collections/src/main/java/com/bytefacets/collections/hash/BaseHash.java:IteratorImpl.next"]}
{"id": "C105", "title": "A call that throws leaves no trace", "statement": "When a call on a deque, vector, multi-headed deque, indexed set or map, or heap throws (NoSuchElementException, index out of bounds, IllegalStateException for a method set on a non-empty collection, a failed growth, an invalid entry), every later call returns or throws exactly what it would have returned or thrown had the failed call not been made.", "quantifier": "every history of calls within the size bounds and entry rules of C01, C04, C27, C45 and C49, every throwing call, every continuation after it", "why_tests_cant": "a trace may show only in some later call (capacity, reuse order of entries, a count); the claim ranges over all histories, all failing calls and all continuations", "anchors": ["collections/src/main/templates/com/bytefacets/collections/queue/KeyDeque.ftl:removeFirst", "collections/src/main/templates/com/bytefacets/collections/heap/BaseKeyHeap.ftl:removeAt", "collections/src/main/templates/com/bytefacets/collections/hash/BaseKeyIndex.ftl:setHashMethod", "collections/src/main/templates/com/bytefacets/collections/queue/KeyHydraDeque.ftl:removeFirst"]}
{"id": "C106", "title": "Which keys are hashed and compared", "statement": "A call that takes a key first hashes that key exactly once and then compares it with the keys of its bucket, in the order forEach hands them out, until one is equal; nothing is changed before these questions are answered. Only an add or put of a new key that makes the collection grow asks more: the hash of every key held, once each, and of the new key once more. Calls that take no key call neither function.", "quantifier": "every reachable indexed set or map, every guarded call, all hash and equality functions with any effect of their own (counters, logs, exceptions) that return the right answer when they return", "why_tests_cant": "the number and order of calls depends on the whole history (capacity, bucket order, reuse); tests use pure functions and cannot range over all effects", "anchors": ["collections/src/main/templates/com/bytefacets/collections/hash/BaseKeyIndex.ftl:lookupEntry", "collections/src/main/templates/com/bytefacets/collections/hash/BaseKeyIndex.ftl:remove", "collections/src/main/templates/com/bytefacets/collections/hash/BaseKeyIndex.ftl:add", "collections/src/main/templates/com/bytefacets/collections/hash/BaseKeyIndex.ftl:rehash"]}
{"id": "C107", "title": "Hash and equality functions that throw", "statement": "If the hash or equality function throws during a call, the exception reaches the caller and the collection is as it was before the call.", "quantifier": "every reachable indexed set or map, every guarded call and history, all hash and equality functions that may throw", "why_tests_cant": "every single call of a function, in every history, may be the one that throws; the harm (lost keys) shows only in later calls", "anchors": ["collections/src/main/templates/com/bytefacets/collections/hash/BaseKeyIndex.ftl:add", "collections/src/main/templates/com/bytefacets/collections/hash/BaseKeyIndex.ftl:rehash", "collections/src/main/templates/com/bytefacets/collections/hash/BaseKeyIndex.ftl:remove"]}
{"id": "C108", "title": "Walks with a consumer that has its own state or throws", "statement": "forEach, forEachEntry and forEachValue hand a consumer that does not touch the collection exactly the elements, in the order of the collection, one call each; an exception of the consumer ends the walk at once, reaches the caller, and leaves the collection as it was and the consumer with what it had been handed.", "quantifier": "every reachable deque, vector, heap, indexed map and set; every consumer, with any state of its own, returning or throwing at any call", "why_tests_cant": "any call of the consumer may be the one that throws, and its state is arbitrary; tests only collect values into a list", "anchors": ["collections/src/main/templates/com/bytefacets/collections/queue/KeyDeque.ftl:forEach", "collections/src/main/templates/com/bytefacets/collections/vector/KeyVector.ftl:forEach", "collections/src/main/java/com/bytefacets/collections/heap/BaseHeap.java:forEachEntry", "collections/src/main/java/com/bytefacets/collections/hash/BaseHash.java:forEachEntry", "collections/src/main/templates/com/bytefacets/collections/hash/BaseKeyIndex.ftl:forEach", "collections/src/main/templates/com/bytefacets/collections/hash/KeyValueIndexedMap.ftl:forEachValue"]}
{"id": "C109", "title": "How far a deque, vector or heap grows", "statement": "The backing array never shrinks and is never larger than needed: after any history it has the least length of the form initial * 2^k that holds the largest contents there ever were (for a deque one cell more; for a vector also every size ensureSize was given), however many elements came and went. The heap's getCapacity reports that length.", "quantifier": "every initial capacity and history within the documented sizes (deque below 2^29 values, vector up to 2^30, heap up to 2^28 entries)", "why_tests_cant": "a bound over all histories; a growth one call too early or too late, or growth under churn, only shows at particular fill levels", "anchors": ["collections/src/main/templates/com/bytefacets/collections/queue/KeyDeque.ftl:grow", "collections/src/main/templates/com/bytefacets/collections/queue/KeyDeque.ftl:addFirst", "collections/src/main/templates/com/bytefacets/collections/queue/KeyDeque.ftl:addLast", "collections/src/main/templates/com/bytefacets/collections/vector/KeyVector.ftl:append", "collections/src/main/templates/com/bytefacets/collections/vector/KeyVector.ftl:ensureSize", "collections/src/main/templates/com/bytefacets/collections/arrays/KeyArray.ftl:grow", "collections/src/main/templates/com/bytefacets/collections/heap/BaseKeyHeap.ftl:insert", "collections/src/main/java/com/bytefacets/collections/heap/BaseHeap.java:getCapacity"]}
{"id": "C110", "title": "ChunkStore with any chunk size", "statement": "For every requested chunk size c (1 to 2^30, a power of two or not), the chunks have the least power of two K >= c cells, two indexes share a cell exactly when they lie in the same chunk and agree on the bits of c-1, set(i) writes all indexes sharing i's cell and nothing else, and get(i) returns what was last written there. So when no two of the indexes used share a cell, get returns the last value set, or the default.", "quantifier": "every chunk size from 1 to 2^30, every initial size up to 2^30, every history of gets and sets with indexes below 2^30", "why_tests_cant": "the pattern of shared cells depends on the chunk size and on all indexes used", "anchors": ["collections/src/main/templates/com/bytefacets/collections/store/KeyChunkStore.ftl:KeyChunkStore", "collections/src/main/templates/com/bytefacets/collections/store/KeyChunkStore.ftl:get", "collections/src/main/templates/com/bytefacets/collections/store/KeyChunkStore.ftl:set"]}
{"id": "C111", "title": "ChunkMatrixStore with any chunk size, and its capacity", "statement": "For every chunk size, number of fields and history, the matrix store behaves as a matrix with room for getCapacity rows in whole chunks: set(row, field) makes room for its row and writes every (row, field) sharing the cell, get of a row beyond the room is the default, otherwise what was last written to the cell. getCapacity is at least the initial size, never shrinks, exceeds every row that was set, and takes less than one chunk more than the rows asked for need.", "quantifier": "every chunk size from 2 to 2^30, number of fields, initial size and history with at most 2^30 cells", "why_tests_cant": "which cells are shared, and when a row comes into the room, depends on chunk size, field count and history", "anchors": ["collections/src/main/templates/com/bytefacets/collections/store/KeyChunkMatrixStore.ftl:get", "collections/src/main/templates/com/bytefacets/collections/store/KeyChunkMatrixStore.ftl:set", "collections/src/main/templates/com/bytefacets/collections/store/KeyChunkMatrixStore.ftl:grow", "collections/src/main/templates/com/bytefacets/collections/store/KeyChunkMatrixStore.ftl:getCapacity"]}
{"id": "C112", "title": "How much storage a multi-headed deque takes", "statement": "The entry numbers addFirst and addLast return are exactly 0..n-1 where n adds up, over the stretches between calls of clear, the largest number of values all lists together held in that stretch: freed cells are reused before new ones are taken, and cells taken before a clear are never used again. The value array has the least length of the form initial * 2^k that holds n entries.", "quantifier": "every element type, initial sizes and history with list ids below 2^30 and fewer than 2^30 additions", "why_tests_cant": "a bound over all histories; a leak of freed cells shows only under particular orders of removals from both ends, and the growth depends on all stretches", "anchors": ["collections/src/main/templates/com/bytefacets/collections/queue/KeyHydraDeque.ftl:allocateEntry", "collections/src/main/templates/com/bytefacets/collections/queue/KeyHydraDeque.ftl:addToFreeList", "collections/src/main/templates/com/bytefacets/collections/queue/KeyHydraDeque.ftl:clear"]}
{"id": "C113", "title": "Walks with a consumer that does everything: keeps a state, calls back, looks at the answers, throws", "statement": "forEach of vector and deque, forEachEntry of the heap and the forEach methods of the indexed map and set, with a consumer that at each value may change its own state, make any calls on the collection being walked depending on what earlier calls returned or threw, and return or throw: the walk does exactly what a walk over the ideal contents does. It hands out at each place what the collection then has there, every call answers like the ideal collection, an exception of the consumer leaves the walk at once and unchanged, the consumer's state and the contents are those of that moment, and the collection can be used on. (For deque and the indexed collections: as long as the calls leave the place of the walk alone, as in C90 and C93.)", "quantifier": "every element type, history, consumer (any decision procedure over its state and the answers of its calls) and every claim about the outcome that holds on the ideal contents", "why_tests_cant": "the consumer is an arbitrary program interleaved with the walk; tests try a few fixed consumers", "anchors": ["collections/src/main/templates/com/bytefacets/collections/vector/KeyVector.ftl:forEach", "collections/src/main/templates/com/bytefacets/collections/queue/KeyDeque.ftl:forEach", "collections/src/main/java/com/bytefacets/collections/heap/BaseHeap.java:forEachEntry", "collections/src/main/java/com/bytefacets/collections/hash/BaseHash.java:forEachEntry", "collections/src/main/templates/com/bytefacets/collections/hash/BaseKeyIndex.ftl:forEach", "collections/src/main/templates/com/bytefacets/collections/hash/KeyValueIndexedMap.ftl:forEachValue"]}
{"id": "C114", "title": "Walks over the associations of one key with a consumer that does everything", "statement": "withLeft(l) / withRight(r) followed by forEachValue or forEachEntry on CompactOneToMany and CompactManyToMany, with a consumer that at each value may change its own state, make any calls on the collection being walked depending on what earlier calls returned or threw, and return or throw: the walk does what a walk over the ideal collection does. It hands out the associations of the key, most recent first, that are still there when they come; every call answers like the ideal collection; an exception of the consumer leaves the walk at once and unchanged; and the collection can be used on. In particular a consumer that removes each association it is handed removes exactly the associations of the key and hands out each of them once.", "quantifier": "every relation made by guarded calls, side, key in reach, kind of walk, consumer (any decision procedure over its state and the answers of its calls) and every claim about the outcome that holds on the ideal collection", "why_tests_cant": "the consumer is an arbitrary program interleaved with the walk, and relinks the chain that is being walked; tests try a few fixed consumers", "anchors": ["collections/src/main/java/com/bytefacets/collections/bi/Mapping.java:forEachValue", "collections/src/main/java/com/bytefacets/collections/bi/Mapping.java:forEachEntry", "collections/src/main/java/com/bytefacets/collections/bi/Side.java:EntryIterator", "collections/src/main/java/com/bytefacets/collections/bi/Side.java:ValueIterator", "collections/src/main/templates/com/bytefacets/collections/functional/KeyIterator.ftl:forEach"]}
{"id": "C115", "title": "Walks over all entries of a two-sided collection with a consumer that does everything", "statement": "forEachEntry on CompactOneToMany and CompactManyToMany, with a consumer that at each entry may change its own state, make any calls on the collection being walked depending on what earlier calls returned or threw, and return or throw: the walk hands out the entries that were there when it began, in the order of forEachEntry, leaving out those that the consumer has removed before they come; every call answers like the ideal collection; an exception of the consumer leaves the walk at once and unchanged; and the collection can be used on. In particular a consumer that removes some of the entries it is handed removes exactly the associations of these, on both sides, and is handed every entry once.", "quantifier": "every relation made by guarded calls, consumer (any decision procedure over its state and the answers of its calls) and every claim about the outcome that holds on the ideal collection", "why_tests_cant": "the consumer is an arbitrary program interleaved with the walk, and relinks the hash chain that is being walked and both sides; tests try a few fixed consumers", "anchors": ["collections/src/main/java/com/bytefacets/collections/bi/CompactOneToMany.java:forEachEntry", "collections/src/main/java/com/bytefacets/collections/hash/BaseHash.java:forEachEntry", "collections/src/main/java/com/bytefacets/collections/bi/CompactManyToMany.java"]}
