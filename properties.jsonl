{"id": "C01", "title": "HashMap behaves as a finite map under every history", "statement": "After any sequence of operator[]=, addUnlessExist, remove, clear and reserve calls on a HashMap, lookup/exists/cGet/dGet of a key return exactly the value most recently stored for that key and not since removed, and size() is the number of distinct present keys. This holds for every hash function and every growth threshold.", "quantifier": "every hash function, every equality-compatible key type, every sequence of operations, every key", "why_tests_cant": "chain layout, free-list reuse and resize points depend on the hash function and the history; a test fixes one hash and a few histories", "anchors": ["include/Lintel/HashMap.hpp:HashMap", "include/Lintel/HashTable.hpp:HashTable::internalAdd", "include/Lintel/HashTable.hpp:HashTable::remove", "include/Lintel/HashTable.hpp:HashTable::resizeHashTable"]}
{"id": "C02", "title": "Hash table iteration visits every entry exactly once", "statement": "In every reachable state of a hash table, walking from begin() to end() with ++ terminates and yields a permutation of the stored entries: none skipped, none repeated, no access outside the table.", "quantifier": "every reachable table state (any history, any hash)", "why_tests_cant": "the walk depends on which buckets are empty and how chains are threaded, which is different for every history and hash function", "anchors": ["include/Lintel/HashTable.hpp:iterator_base", "include/Lintel/HashTable.hpp:HashTable::begin"]}
{"id": "C03", "title": "Removal during iteration with partialReset visits everything exactly once", "statement": "A loop that walks a hash table, removes selected current entries and repositions with partialReset (the prune idiom) removes exactly the entries selected by the predicate and examines every other entry at least once and never touches a removed one.", "quantifier": "every table state, every predicate", "why_tests_cant": "correctness depends on where in its chain each removed entry sits; the combination space of chains and predicates is unbounded", "anchors": ["include/Lintel/HashTable.hpp:iterator_base::partialReset", "include/Lintel/HashTupleStats.hpp:HashTupleStats::prune", "include/Lintel/StatsCube.hpp:StatsCube::prune"]}
{"id": "C04", "title": "HashTable with duplicate keys is a multimap; size and remove account for one entry each", "statement": "HashTable::add never disturbs other entries; after any history the multiset of stored entries is adds minus removes; remove(key) deletes exactly one entry with an equal key when there is one, reports whether it did, and aborts only when must_exist is set and none is present.", "quantifier": "every history of add/remove/clear/reserve, every hash function", "why_tests_cant": "duplicates and free-list slots interact only in particular histories", "anchors": ["include/Lintel/HashTable.hpp:HashTable::add", "include/Lintel/HashTable.hpp:HashTable::remove", "include/Lintel/HashTable.hpp:HashTable::size"]}
{"id": "C05", "title": "addOrReplace stores the new value", "statement": "After table.addOrReplace(v), looking up v's key yields v (the documented 'add or replace'), and the call reports whether an entry with that key was already present.", "quantifier": "every table state and every value", "why_tests_cant": "a test using value types whose equality covers the whole value cannot see a missing overwrite; the property must hold for every pair of equal-keyed but different values", "anchors": ["include/Lintel/HashTable.hpp:HashTable::addOrReplace", "include/Lintel/HashUnique.hpp:HashUnique::addOrReplace"]}
{"id": "C06", "title": "HashUnique is a set", "statement": "After any sequence of add/addOrReplace/remove/clear on a HashUnique, exists(k) is true iff k was added and not removed since; add returns true exactly when the key was absent; size is the number of distinct keys.", "quantifier": "every history, every hash function", "why_tests_cant": "depends on chain and free-list state after arbitrary histories", "anchors": ["include/Lintel/HashUnique.hpp:HashUnique"]}
{"id": "C07", "title": "RotatingHashMap keeps recently used keys and forgets keys untouched for two rotations", "statement": "In a RotatingHashMap, a key accessed since the last rotate is found after one further rotate with its value intact; a key present and not accessed across two rotations is absent; no key is ever counted twice; without rotations the structure is an ordinary map.", "quantifier": "every sequence of operations and rotations", "why_tests_cant": "the property quantifies over all interleavings of access and rotation", "anchors": ["include/Lintel/RotatingHashMap.hpp:RotatingHashMap"]}
{"id": "C08", "title": "PriorityQueue returns elements in importance order and loses nothing", "statement": "For every sequence of push/pop/replaceTop/clear/reserve, top() is an element at least as important as every element in the queue, and the multiset of elements in the queue is exactly pushes minus pops.", "quantifier": "every total preorder on elements, every history, every initial capacity at least one", "why_tests_cant": "heap shape bugs show only for specific sizes and orderings; all histories are needed", "anchors": ["include/Lintel/PriorityQueue.hpp:PriorityQueue"]}
{"id": "C09", "title": "pop via the bottom-up heuristic is interchangeable with plain pop", "statement": "Popping with the bottom-up heuristic removes one most-important element and leaves a valid queue holding exactly the others, as plain pop does; replaceTop(v) yields the same multiset as pop() followed by push(v) and keeps top() correct.", "quantifier": "every valid queue, every total preorder", "why_tests_cant": "equivalence over all heaps and comparators is beyond enumeration", "anchors": ["include/Lintel/PriorityQueue.hpp:PriorityQueue::pop_bottom_up_heuristic", "include/Lintel/PriorityQueue.hpp:PriorityQueue::replaceTop"]}
{"id": "C10", "title": "Deque is a FIFO queue under every history", "statement": "After any sequence of push_back, pop_front, clear and reserve on a Deque of any initial size, front/back/at/size/empty agree with the list obtained by appending and dropping from the front; growth never loses, duplicates or reorders elements, and no operation touches storage outside the buffer or an unconstructed slot.", "quantifier": "every initial capacity, every history", "why_tests_cant": "wrap position and growth point combine in unboundedly many ways", "anchors": ["include/Lintel/Deque.hpp:Deque"]}
{"id": "C11", "title": "Deque iterators enumerate the queue and support random access", "statement": "begin()..end() yields the elements in queue order; (begin()+i) designates at(i) for all i in range; iterator difference and comparison agree with positions; it+d then -d returns to it for every in-range d, positive or negative.", "quantifier": "every deque state (capacity, wrap position, size), every in-range offset", "why_tests_cant": "negative offsets crossing the wrap need particular capacity/position combinations", "anchors": ["include/Lintel/Deque.hpp:iterator"]}
{"id": "C12", "title": "A write through one ByteBuffer never changes another", "statement": "After copying or assigning ByteBuffers in any pattern, modifying one of them (append, extend after writing, consume, replace, clear, resize, writable access) leaves the readable contents of every other ByteBuffer unchanged.", "quantifier": "every number of buffers, every sharing pattern, every operation sequence", "why_tests_cant": "copy-on-write sharing patterns are unbounded; a test covers a few aliasing shapes", "anchors": ["include/Lintel/ByteBuffer.hpp:ByteBuffer", "include/Lintel/ByteBuffer.hpp:ByteBuffer::forceUnique"]}
{"id": "C13", "title": "ByteBuffer contents are exactly appended bytes minus consumed bytes", "statement": "For any sequence of operations the readable bytes of a ByteBuffer are the concatenation of everything appended minus what was consumed, independent of buffer size, compaction (shift) and reallocation.", "quantifier": "every operation sequence, every initial size, every byte string", "why_tests_cant": "compaction and reallocation decisions depend on sizes and offsets over the history", "anchors": ["include/Lintel/ByteBuffer.hpp:ByteBuffer::append", "include/Lintel/ByteBuffer.hpp:ByteBuffer::consume", "include/Lintel/ByteBuffer.hpp:NoCopyByteBuffer"]}
{"id": "C14", "title": "Base64 encode/decode round trip", "statement": "Reading an encoded unsigned number as base-64 digits returns the number modulo 64^digits (the number itself for the default digit counts), for 32- and 64-bit values; decode(encode(bytes)) returns the bytes, the byte-string encoding is injective and has ceil(8n/6) characters, and an explicit digit count cuts or zero-fills it.", "quantifier": "every 32-bit and 64-bit value, every byte string", "why_tests_cant": "2^64 values and all byte strings cannot be enumerated", "anchors": ["include/Lintel/Base64.hpp:ASCIIbeticalB64"]}
{"id": "C15", "title": "Base64 encoding preserves order", "statement": "Comparing encoded strings byte-wise gives the same result as comparing the original numbers (at equal digit counts) or the original byte strings lexicographically.", "quantifier": "every pair of numbers; every pair of byte strings", "why_tests_cant": "order must hold for every pair", "anchors": ["include/Lintel/Base64.hpp:ASCIIbeticalB64::encode"]}
{"id": "C16", "title": "split and join are inverse", "statement": "join(sep, split(s, sep)) == s for every string and non-empty separator; split(join(sep, parts), sep) == parts whenever parts is non-empty and no separator occurrence arises across the joins; an empty join is the empty string.", "quantifier": "every string, every separator, every list of parts", "why_tests_cant": "overlapping separators and separators at the ends occur only in special strings", "anchors": ["src/StringUtil.cpp:split", "src/StringUtil.cpp:join"]}
{"id": "C17", "title": "Hexadecimal conversion round trip", "statement": "hex2raw(hexstring(s)) == s for every byte string; hex2raw accepts exactly the strings of even length of hex digits and hexstring(hex2raw(h)) == h up to letter case; maybehex2raw(maybehexstring(s)) == s.", "quantifier": "every byte string", "why_tests_cant": "all byte values in all positions; the 'maybe' variants depend on the whole string", "anchors": ["src/StringUtil.cpp:hexstring", "src/StringUtil.cpp:hex2raw", "src/StringUtil.cpp:maybehexstring", "src/StringUtil.cpp:maybehex2raw"]}
{"id": "C18", "title": "mysqlEscape and escapeUnprintable are lossless and safe", "statement": "Text produced by mysqlEscape contains no unescaped quote, backslash, NUL or newline and decodes back to the input under MySQL's escape rules; escapeUnprintable output is printable and decodes back to the input.", "quantifier": "every byte string", "why_tests_cant": "an escape hole can exist for a single byte in a single context", "anchors": ["src/StringUtil.cpp:mysqlEscape", "src/StringUtil.cpp:escapeUnprintable"]}
{"id": "C19", "title": "toCSVform output is read back as one field with the original text", "statement": "A field printed with toCSVform and parsed by an RFC 4180 reader in any row position yields the original string.", "quantifier": "every string, every row context", "why_tests_cant": "needs every combination of quotes, commas and newlines", "anchors": ["src/StringUtil.cpp:toCSVform"]}
{"id": "C20", "title": "IPv4 dotted text round trip", "statement": "stringtoipv4(ipv4tostring(a)) == a for every address a.", "quantifier": "every 32-bit address", "why_tests_cant": "2^32 addresses, with one sentinel collision", "anchors": ["src/StringUtil.cpp:ipv4tostring", "src/StringUtil.cpp:stringtoipv4"]}
{"id": "C21", "title": "Boyer-Moore-Horspool finds the first occurrence", "statement": "find returns the offset of the first occurrence of the needle in the haystack or npos when there is none, reading only inside both, for every non-empty needle.", "quantifier": "every needle and haystack", "why_tests_cant": "skip tables depend on the whole needle; a wrong skip loses matches only for special pairs", "anchors": ["src/BoyerMooreHorspool.cpp:BoyerMooreHorspool::find", "src/BoyerMooreHorspool.cpp:BoyerMooreHorspool::init"]}
{"id": "C22", "title": "Interpolation search equals lower_bound", "statement": "On every sorted range, interpolation search returns the same position as std::lower_bound, dereferences only positions inside the range and terminates, whatever the distribution of values and whatever in-range estimator is used.", "quantifier": "every sorted sequence, every target, every estimator within bounds", "why_tests_cant": "bad estimates depend on the data distribution; adversarial inputs are infinite", "anchors": ["include/Lintel/unstable/InterpolationSearch.hpp:interpolationSearch"]}
{"id": "C23", "title": "Atomic operations lose no updates under any schedule", "statement": "For any number of threads performing any mix of ++, --, fetch_add, fetch_sub, fetch_or, fetch_and, fetch_xor, exchange and compare_exchange on one Atomic, every interleaving is equivalent to executing the operations one at a time in some order that respects each thread's program order, with the same return values and final value (modulo the word size).", "quantifier": "every number of threads, every program, every interleaving", "why_tests_cant": "schedules are unbounded; races show with vanishing probability in tests", "anchors": ["include/Lintel/AtomicCounter.hpp:Atomic"]}
{"id": "C24", "title": "ConstantString interning: equal text iff equal object, comparison consistent with equality", "statement": "Two ConstantStrings are == iff their texts are equal, whatever other strings were created in between; text once interned never changes; compare()==0 iff ==.", "quantifier": "every history of created strings", "why_tests_cant": "the pool contents and buffer boundaries depend on the entire history; embedded NULs need special inputs", "anchors": ["include/Lintel/ConstantString.hpp:ConstantString", "src/ConstantString.cpp:ConstantString::init"]}
{"id": "C25", "title": "StringId is a stable bijection between strings and ids", "statement": "getId returns the same id for the same string for ever, different ids for different strings, ids are consecutive, and getString(getId(s)) == s.", "quantifier": "every history of calls", "why_tests_cant": "history of arbitrary strings", "anchors": ["include/Lintel/StringId.hpp:StringId", "src/StringId.cpp:StringId"]}
{"id": "C26", "title": "Tuple hashing and ordering are consistent with equality", "statement": "For tuples with wildcard (any) fields: equal tuples hash equally; operator< is a strict weak ordering whose equivalence is ==; wildcard sorts after every value.", "quantifier": "every pair and triple of tuples of any arity", "why_tests_cant": "order laws quantify over all triples", "anchors": ["include/Lintel/Tuples.hpp:bitset_any_hash", "include/Lintel/Tuples.hpp:bitset_any_equal", "include/Lintel/Tuples.hpp:bitset_any_strict_less_than", "include/Lintel/Tuples.hpp:AnyPair"]}
{"id": "C27", "title": "A cube entry aggregates exactly the matching rows", "statement": "After adding any rows to a HashTupleStats and building a StatsCube from it, the entry for a partially wildcarded tuple is the aggregate of exactly the base entries that agree with it on the non-wildcard fields, and there is an entry for every wildcarding of every base tuple and no other.", "quantifier": "every multiset of rows, every arity, every wildcard pattern", "why_tests_cant": "2^n patterns over arbitrary data", "anchors": ["include/Lintel/StatsCube.hpp:StatsCube::cubeAddOne", "include/Lintel/StatsCube.hpp:StatsCube::addToCube"]}
{"id": "C28", "title": "Zero-filled walk covers the cross product", "statement": "walkZeros visits every combination of values seen in each column exactly once, passing the stored statistics when the combination was recorded and an empty statistic otherwise.", "quantifier": "every data set, every arity", "why_tests_cant": "cross product of arbitrary data", "anchors": ["include/Lintel/HashTupleStats.hpp:HashTupleStats::walkZeros", "include/Lintel/HashTupleStats.hpp:zeroWalk"]}
{"id": "C29", "title": "StatsQuantile never loses or invents weight", "statement": "At every point in every sequence of adds (and merges) the total weight represented by the quantile sketch equals the number of values added, every stored value is one of the added values, and memory use is bounded by the configured buffers.", "quantifier": "every value sequence, every buffer configuration", "why_tests_cant": "collapse patterns depend on the length of the whole stream", "anchors": ["include/Lintel/StatsQuantile.hpp:StatsQuantile", "src/StatsQuantile.cpp:StatsQuantile::collapse"]}
{"id": "C30", "title": "StatsQuantile answers are exact until the first collapse and within the guaranteed rank error afterwards", "statement": "While no collapse has happened getQuantile(q) is the exact order statistic; afterwards the true rank of the returned value differs from the requested rank by at most the error implied by the collapses performed.", "quantifier": "every value sequence, every q", "why_tests_cant": "error bounds quantify over all streams", "anchors": ["src/StatsQuantile.cpp:StatsQuantile::getQuantile", "src/StatsQuantile.cpp:StatsQuantile::getQuantileByIndex", "src/StatsQuantile.cpp:StatsQuantile::collapse"]}
{"id": "C31", "title": "Merging Stats equals adding all values", "statement": "For Stats, adding another Stats gives the same count, sum, sum of squares, min, max, mean and variance as adding all of its values one at a time, in any grouping (exact arithmetic); variance is never negative and min <= mean <= max when non-empty.", "quantifier": "every pair of value sequences", "why_tests_cant": "algebraic law over all sequences and merge trees", "anchors": ["src/Stats.cpp:Stats::add", "src/Stats.cpp:Stats::variance"]}
{"id": "C32", "title": "Uniform histogram counts each value in the bin containing it", "statement": "After any sequence of adds to a fixed, scalable or growable StatsHistogramUniform, the bin counts sum to count(), and bin i counts exactly the values that fall in its interval (end bins also absorb out-of-range values when the histogram is fixed); rescaling and growing never lose or misplace a count.", "quantifier": "every value sequence, every histogram configuration", "why_tests_cant": "rescales depend on the order and magnitude of all values", "anchors": ["src/StatsHistogram.cpp:StatsHistogramUniform::add", "src/StatsHistogram.cpp:StatsHistogramUniform::sampleBin"]}
{"id": "C33", "title": "Histogram percentile lies in the bin holding that rank", "statement": "percentile(p) of a non-empty uniform histogram lies within the bin that contains the value of rank p*count, is monotone in p, and never reads outside the bins.", "quantifier": "every histogram state, every p in [0,1]", "why_tests_cant": "all bin-count vectors and all p", "anchors": ["src/StatsHistogram.cpp:StatsHistogramUniform::percentile"]}
{"id": "C34", "title": "Accumulating histogram keeps per-bin sums in step with counts", "statement": "In StatsHistogramUniformAccum the value stored for a bin is the sum of the data values added to that bin through every rescale, and no access leaves the arrays.", "quantifier": "every add sequence, every configuration", "why_tests_cant": "array bounds depend on the bin-count parity and rescale history", "anchors": ["src/StatsHistogram.cpp:StatsHistogramUniformAccum::add", "src/StatsHistogram.cpp:StatsHistogramUniformAccum::value"]}
{"id": "C35", "title": "StatsHistogramGroup routes every value to exactly one part", "statement": "Every value added to a StatsHistogramGroup with increasing range bounds is counted in exactly one of low, high or the sub-histogram whose half-open range contains it.", "quantifier": "every value, every increasing list of bounds", "why_tests_cant": "boundary values for arbitrary bound lists", "anchors": ["src/StatsHistogram.cpp:StatsHistogramGroup::add"]}
{"id": "C36", "title": "StatsSequence keeps a bounded, evenly merged summary", "statement": "For any number of added points StatsSequence retains at most the configured number of values, each retained value is the chosen aggregate (sum, mean, max, ...) of the same power-of-two number of consecutive points, in order, with none missing.", "quantifier": "every point sequence, every limit, every merge mode", "why_tests_cant": "merging happens repeatedly at history-dependent times", "anchors": ["src/StatsSequence.cpp:StatsSequence::add"]}
{"id": "C37", "title": "StatsSeries autocovariance is the textbook estimator", "statement": "autocovariance(lag) equals (1/n) * sum (x_t - mean)(x_{t+lag} - mean) over the added samples for every lag within the configured maximum (exact arithmetic).", "quantifier": "every sample sequence, every lag", "why_tests_cant": "incremental formula against definition over all sequences", "anchors": ["src/StatsSeries.cpp:StatsSeries::add", "src/StatsSeries.cpp:StatsSeries::autocovariance"]}
{"id": "C38", "title": "StatsSeriesGroup puts each value in its time bucket", "statement": "Values added in time order to a StatsSeriesGroup with interval d starting at t0 are aggregated in bucket floor((t-t0)/d), empty intervals have no statistic, and reset returns the object to its initial state.", "quantifier": "every time-ordered sequence, every positive interval", "why_tests_cant": "gaps of arbitrary length", "anchors": ["src/StatsSeriesGroup.cpp:StatsSeriesGroup::addTimeSeq", "src/StatsSeriesGroup.cpp:StatsSeriesGroup::reset"]}
{"id": "C39", "title": "Weighted least squares returns the minimiser", "statement": "For any data with a non-degenerate x spread, the fitted line minimises the weighted sum of squared residuals over all lines (exact arithmetic).", "quantifier": "every data set, every competing line", "why_tests_cant": "minimality quantifies over all lines", "anchors": ["src/LeastSquares.cpp:LeastSquares::fitLinearVertical"]}
{"id": "C40", "title": "Gaussian elimination preserves the solutions and solves full-rank systems", "statement": "gaussEliminate on an augmented matrix leaves its set of solutions unchanged, and when it reports full rank the eliminated block is the identity so the augmented column is the unique solution (exact arithmetic).", "quantifier": "every matrix over a field, every pivot order chosen by the code", "why_tests_cant": "all matrices", "anchors": ["src/Matrix.cpp:Matrix::gaussEliminate"]}
{"id": "C41", "title": "Approximate comparison is a consistent trichotomy", "statement": "For every pair of finite doubles exactly one of Double::lt, Double::eq, Double::gt holds, eq is symmetric and reflexive, and leq/geq are the corresponding unions.", "quantifier": "every pair of numbers", "why_tests_cant": "all pairs", "anchors": ["include/Lintel/Double.hpp:Double::eq", "include/Lintel/Double.hpp:Double::lt"]}
{"id": "C42", "title": "Clock fixed-point conversion round trips", "statement": "Converting seconds+microseconds (or nanoseconds) to Tfrac and back returns the same seconds and sub-second part for every second and every in-range sub-second value, despite double rounding.", "quantifier": "every seconds value, every microsecond below 10^6, every nanosecond below 10^9", "why_tests_cant": "4*10^18 combinations; the repository's own test samples 1%", "anchors": ["include/Lintel/Clock.hpp:Clock::secMicroToTfrac", "include/Lintel/Clock.hpp:Clock::secNanoToTfrac", "include/Lintel/Clock.hpp:Clock::TfracToMicroSec", "include/Lintel/Clock.hpp:Clock::TfracToNanoSec"]}
{"id": "C43", "title": "secondsToTfrac is within half a unit for every time", "statement": "secondsToTfrac(s) differs from s*2^32 by at most one half for every non-negative s below 2^32-1, and TfracOffsetDouble(t, d) moves t by the same amount.", "quantifier": "every non-negative time in range", "why_tests_cant": "failures concentrate in the last half-unit before a whole second", "anchors": ["include/Lintel/Clock.hpp:Clock::secondsToTfrac", "include/Lintel/Clock.hpp:Clock::TfracOffsetDouble"]}
{"id": "C44", "title": "Mersenne Twister output follows the MT19937 recurrence for ever", "statement": "For every seed the k-th randInt() equals the tempered (k+624)-th word of the MT19937 linear recurrence started from that seed's state, for all k, across every internal reload.", "quantifier": "every seed, every output index", "why_tests_cant": "the repository checks about 1000 outputs of two seeds", "anchors": ["src/MersenneTwisterRandom.cpp:MersenneTwisterInternal::reloadArray", "include/Lintel/MersenneTwisterRandom.hpp:MersenneTwisterInternal::randInt"]}
{"id": "C45", "title": "Output tempering is a bijection", "statement": "Different internal words give different outputs and every 32-bit output is produced by exactly one internal word, so the output distribution over a full period is that of the state words.", "quantifier": "every 32-bit word", "why_tests_cant": "bijectivity over 2^32 words", "anchors": ["include/Lintel/MersenneTwisterRandom.hpp:MersenneTwisterInternal::randInt"]}
{"id": "C46", "title": "MT_random_shuffle produces every permutation from exactly one choice sequence", "statement": "MT_random_shuffle permutes its range, and each of the n! orders of n distinct elements results from exactly one of the n! possible sequences of random choices, so ideal choices give uniform permutations.", "quantifier": "every range length, every choice sequence", "why_tests_cant": "n! grows beyond enumeration", "anchors": ["include/Lintel/MersenneTwisterRandom.hpp:MT_random_shuffle"]}
{"id": "C47", "title": "randIntUnbiased is unbiased and in range", "statement": "Every result of randIntUnbiased(max) is below max, and each result value corresponds to exactly the same number of accepted 32-bit generator outputs.", "quantifier": "every max from 1 to 2^32-1", "why_tests_cant": "2^64 (max, output) pairs", "anchors": ["include/Lintel/RandomBase.hpp:RandomTempl::randIntUnbiased"]}
{"id": "C48", "title": "Re-seeding makes the generator reproducible", "statement": "After init(seed) or initArray(seeds) every subsequent result of every generator method depends only on the seed and the calls made since, not on calls made before.", "quantifier": "every history before the re-seed", "why_tests_cant": "requires comparing all prior histories", "anchors": ["include/Lintel/RandomBase.hpp:RandomTempl::init", "include/Lintel/RandomBase.hpp:RandomTempl::randBoolFast"]}
{"id": "C49", "title": "Spin locks provide mutual exclusion", "statement": "With any number of threads using rdlock/wrlock/unlock on one spin lock, at most one thread is between lock and unlock at any time, for every schedule and any waiting time; when the holder releases, some waiter can acquire.", "quantifier": "every number of threads, every interleaving, unbounded spinning", "why_tests_cant": "counter wrap-around needs billions of spins; interleavings are unbounded", "anchors": ["include/Lintel/Lock.hpp:GlibcPosixSpinLock", "include/Lintel/Lock.hpp:AtomicSpinLock", "include/Lintel/Lock.hpp:SpinLockYield"]}
{"id": "C50", "title": "Lock ordering groups exclude deadlock", "statement": "If all threads take mutexes only through PThreadScopedLock with a LockOrderingGroup and each mutex always has the same level, then no set of threads can be blocked in a cycle, and a thread that violates the order is stopped before it waits.", "quantifier": "every number of threads and mutexes, every interleaving, nested ScopedUnlock included", "why_tests_cant": "deadlocks need specific interleavings", "anchors": ["include/Lintel/LockOrderingGroup.hpp:LockOrderingGroup", "include/Lintel/PThread.hpp.in:PThreadScopedLock", "include/Lintel/PThread.hpp.in:PThreadScopedUnlock"]}
{"id": "C51", "title": "Log levels follow the configuration, whenever categories are first used", "statement": "The debug level of a category is the one given by the settings made so far, independent of whether the category was first mentioned before or after those settings.", "quantifier": "every sequence of setDebugLevel and category registrations", "why_tests_cant": "depends on the order of registration and configuration", "anchors": ["src/LintelLog.cpp:LintelLog::setDebugLevel", "src/LintelLog.cpp:LintelLog::lockedCategoryToId"]}
{"id": "C52", "title": "Help text wrapping bounds line length and preserves the text", "statement": "basicWordWrap returns text whose every line is at most the wrap width (COLUMNS, but at least 10), that differs from its input only by spaces turned into newlines and inserted newlines; text that already fits is unchanged, and lines are broken at the right-most blank of their second half if there is one.", "quantifier": "every text, every COLUMNS value", "why_tests_cant": "break positions depend on all spaces and widths", "anchors": ["src/ProgramOptions.cpp:basicWordWrap"]}
{"id": "C53", "title": "The hash mixing step is reversible", "statement": "The three-word mixing step used by the hash functions is a bijection on triples of 32-bit words, so it never merges two states.", "quantifier": "every triple of 32-bit words", "why_tests_cant": "2^96 states", "anchors": ["include/Lintel/HashFns.hpp:lintel_BobJenkinsHashMix", "include/Lintel/HashFns.hpp:BobJenkinsHashMix3"]}
{"id": "C54", "title": "bobJenkinsHash reads exactly the given bytes", "statement": "The byte-buffer hash depends only on the seed and the bytes given, reads no byte outside them, and treats the length as part of the input.", "quantifier": "every byte buffer and seed", "why_tests_cant": "tail handling differs for each of 12 residues and all lengths", "anchors": ["src/HashFns.cpp:bobJenkinsHash"]}
{"id": "C55", "title": "iteratorRangeEqual is list equality", "statement": "iteratorRangeEqual(a, b) returns true iff both ranges have the same length and element-wise equal contents, without reading past either end.", "quantifier": "every pair of ranges", "why_tests_cant": "unequal-length ranges of every shape", "anchors": ["include/Lintel/STLUtility.hpp:iteratorRangeEqual"]}
{"id": "C56", "title": "Condition-variable timeouts are normalised", "statement": "timedWait(seconds) passes an absolute deadline with a nanosecond field in [0,10^9) that is the current time plus the requested seconds rounded to the nearest nanosecond.", "quantifier": "every current time and every non-negative duration", "why_tests_cant": "carry cases at the edge of a second", "anchors": ["include/Lintel/PThread.hpp.in:PThreadCond::timedWait"]}
{"id": "C57", "title": "StatsRW splits operations and totals consistently", "statement": "StatsRW counts each read in reads, each write in writes and both in all; any mix of add calls is accepted.", "quantifier": "every sequence of read/write/all adds for every combination of component kinds", "why_tests_cant": "the failing sequences involve particular component kinds in particular order", "anchors": ["src/StatsRW.cpp:StatsRW::add"]}
{"id": "C58", "title": "Pushing a reference to the deque's own element works", "statement": "d.push_back(d.at(i)) appends a copy of element i for every i in range, whatever the fill level (as std::deque guarantees).", "quantifier": "every deque state, every in-range index", "why_tests_cant": "only fails when the push happens to trigger growth", "anchors": ["include/Lintel/Deque.hpp:Deque::push_back", "include/Lintel/Deque.hpp:Deque::push_expand"]}
{"id": "C59", "title": "prefixequal and suffixequal decide prefixes and suffixes", "statement": "prefixequal(s, p) is true iff s is p followed by something; suffixequal(s, p) iff s is something followed by p, including empty and equal-length arguments.", "quantifier": "every pair of strings", "why_tests_cant": "boundary lengths in every combination", "anchors": ["src/StringUtil.cpp:prefixequal", "src/StringUtil.cpp:suffixequal"]}
{"id": "C60", "title": "Base64 backward encoding writes the low bits of the big-endian value", "statement": "encodeBackward(data, size, digits, out) with 6*digits <= 8*size never reads outside data and writes exactly `digits` characters that read, in base 64, as the low 6*digits bits of the big-endian value of data; with more digits it always reads before data.", "quantifier": "every byte string and digit count", "why_tests_cant": "memory safety depends on the relation of two lengths", "anchors": ["include/Lintel/Base64.hpp:ASCIIbeticalB64::encodeBackward"]}
{"id": "C61", "title": "randomlookup returns only stored entries and can return every one", "statement": "HashTable::randomlookup(a, b) returns null exactly when the table is empty; otherwise, for every pair of random numbers, it terminates and returns a stored entry; every stored entry is returned for some pair.", "quantifier": "every reachable table state, every pair of random numbers", "why_tests_cant": "which chain is picked depends on empty buckets and on the random numbers; a test samples a few pairs", "anchors": ["include/Lintel/HashTable.hpp:HashTable::randomlookup"]}
{"id": "C62", "title": "PriorityQueue::selfVerify accepts every valid queue", "statement": "selfVerify() returns normally on every queue reached through the public interface.", "quantifier": "every history, every comparator", "why_tests_cant": "depends on ties between parent and child in the heap layout", "anchors": ["include/Lintel/PriorityQueue.hpp:PriorityQueue::selfVerify"]}
{"id": "C63", "title": "A default-constructed PriorityQueue accepts pushes", "statement": "A queue built with the default initial size accepts a push and then shows the element as top(), for every element type.", "quantifier": "every element size", "why_tests_cant": "tests use small element types; the default room is 1024/sizeof(T)", "anchors": ["include/Lintel/PriorityQueue.hpp:PriorityQueue::PriorityQueue", "include/Lintel/PriorityQueue.hpp:PriorityQueue::double_size"]}
{"id": "C64", "title": "PriorityQueue calls given a reference to the queue's own top are safe", "statement": "replaceTop(top()) leaves the multiset unchanged and push(top()) adds a copy of the top, in every state.", "quantifier": "every reachable state, every comparator", "why_tests_cant": "fails only on ties or on a full array", "anchors": ["include/Lintel/PriorityQueue.hpp:PriorityQueue::replaceTop", "include/Lintel/PriorityQueue.hpp:PriorityQueue::push"]}
{"id": "C65", "title": "The room a ByteBuffer reports can be written", "statement": "After writeAvailable() returns n, writeStart(k)/extend(k) with k <= n succeed.", "quantifier": "every reachable state, every sharing pattern", "why_tests_cant": "fails only on copied buffers, where making the buffer unique drops the room", "anchors": ["include/Lintel/ByteBuffer.hpp:ByteBuffer::writeAvailable", "include/Lintel/ByteBuffer.hpp:ByteBuffer::forceUnique"]}
{"id": "C66", "title": "Appending or assigning a ByteBuffer to itself", "statement": "b.append(b) doubles the contents of b and b.assign(b) leaves them unchanged, in every state.", "quantifier": "every reachable state", "why_tests_cant": "depends on the room left and on sharing", "anchors": ["include/Lintel/ByteBuffer.hpp:ByteBuffer::append", "include/Lintel/ByteBuffer.hpp:ByteBuffer::assign"]}
{"id": "C67", "title": "Reading a stream into a ByteBuffer appends the bytes read", "statement": "appendFromStream(in, amount) and appendEntireStream append the bytes delivered by the stream, in every state, without writing outside the buffer.", "quantifier": "every reachable state, every stream length", "why_tests_cant": "the overflow needs a copied buffer with room", "anchors": ["include/Lintel/ByteBuffer.hpp:ByteBuffer::appendFromStream", "include/Lintel/ByteBuffer.hpp:ByteBuffer::appendEntireStream"]}
{"id": "C68", "title": "BobJenkinsHashMix3 separates arguments that differ in one word", "statement": "With two of its three arguments fixed, BobJenkinsHashMix3 returns different values for different values of the third.", "quantifier": "every pair of 32-bit words, every argument position", "why_tests_cant": "2^32 values per position; collisions are rare", "anchors": ["include/Lintel/HashFns.hpp:BobJenkinsHashMix3"]}
{"id": "C69", "title": "bobJenkinsHash loses no key information before the final word", "statement": "Two different keys of fewer than 12 bytes, or two keys of the same length differing in a single aligned 12-byte block, lead to different internal three-word states, so any collision comes from keeping one word of three only.", "quantifier": "every seed, every key", "why_tests_cant": "256^n keys", "anchors": ["src/HashFns.cpp:bobJenkinsHash"]}
{"id": "C70", "title": "bobJenkinsHash takes every byte of the key into account", "statement": "Changing any byte of a key changes the state from which its hash is taken, for keys of every length.", "quantifier": "every key length including 4 GiB and more", "why_tests_cant": "the length is cut to 32 bits; a test would need 4 GiB keys", "anchors": ["src/HashFns.cpp:bobJenkinsHash"]}
{"id": "C71", "title": "A seeded Mersenne Twister never dies", "statement": "Whatever seed or non-empty seed array was given, among any 624 consecutive results of randInt() there is one that is not zero, at any point of the sequence.", "quantifier": "every seed, every non-empty seed array, every position", "why_tests_cant": "unbounded sequences, 2^32 seeds and all arrays", "anchors": ["src/MersenneTwisterRandom.cpp:MersenneTwisterInternal::init", "src/MersenneTwisterRandom.cpp:MersenneTwisterInternal::initArray"]}
{"id": "C72", "title": "randIntUnbiased stays unbiased with the header's own UINT32_MAX", "statement": "When the system headers do not define UINT32_MAX, randIntUnbiased(max) is still in range and unbiased for every max.", "quantifier": "every max", "why_tests_cant": "the fallback is not compiled on the test platform, and only large max are affected", "anchors": ["include/Lintel/RandomBase.hpp:RandomTempl::randIntUnbiased"]}
{"id": "C73", "title": "MarsagliaRNGMicro is Marsaglia's xorshift128", "statement": "The results of MicroRandInner follow the xorshift128 recurrence with shifts (15, 4, 21): each from the result four places before and the previous one.", "quantifier": "every seed, every position", "why_tests_cant": "unbounded sequences", "anchors": ["include/Lintel/MarsagliaRandom.hpp:MicroRandInner::randInt"]}
{"id": "C74", "title": "The Marsaglia multiply-with-carry generators follow their documented recurrence inside their array", "statement": "Each randInt() of MarsagliaInner<SIZE, A> reads and writes inside its array and makes the documented step X_n = (B-1) - (A X_{n-SIZE} + C) mod B, C' = floor((A X_{n-SIZE} + C)/B) with B = 2^32-1, and the carry keeps 0 <= C < A.", "quantifier": "every array contents, every carry, every index value, unbounded sequences", "why_tests_cant": "32*SIZE+30 bits of state", "anchors": ["include/Lintel/MarsagliaRandom.hpp:MarsagliaInner::randInt"]}
{"id": "C75", "title": "A Marsaglia multiply-with-carry generator is determined by its seed", "statement": "Two MarsagliaInner objects given the same seed, at construction or by init(seed), return the same results.", "quantifier": "every seed, every earlier history", "why_tests_cant": "depends on uninitialised memory and on earlier calls", "anchors": ["include/Lintel/MarsagliaRandom.hpp:MarsagliaInner::init"]}
{"id": "C76", "title": "The hash values are those of the published function", "statement": "For every seed and every buffer below 4 GiB, bobJenkinsHash returns the value of Bob Jenkins' published lookup2 function; BobJenkinsHashMix3 and BobJenkinsHashMixULL return the third word of its mixer, so stored hashes stay comparable across programs.", "quantifier": "every seed, every buffer, every three words, every 64-bit value", "why_tests_cant": "2^96 mixer inputs and unbounded buffers; a wrong shift constant changes only some bits", "anchors": ["src/HashFns.cpp:bobJenkinsHash", "include/Lintel/HashFns.hpp:BobJenkinsHashMix3"]}
{"id": "C77", "title": "The default interpolation estimator is safe on integer keys", "statement": "interpolationLowerBound(begin, end, v) with the default EstimateOffset on a sorted range of integers returns the lower bound for every range and every v; in particular the estimated position never lies past the end of the remaining range, despite the conversions to double.", "quantifier": "All sorted integer ranges, all targets, all rounding outcomes of the floating-point operations.", "why_tests_cant": "Differences near the limits of the type and lengths at which doubles round are not sampled; overflow is undefined behaviour and need not show.", "anchors": ["include/Lintel/unstable/InterpolationSearch.hpp:37-47", "include/Lintel/unstable/InterpolationSearch.hpp:161-177"]}
{"id": "C78", "title": "The cycle-counter clock does not lose bits or run backwards between recalibrations", "statement": "For every machine on which calibration succeeds and every accepted recalibration interval, calls of todccTfrac() that do not recalibrate never overflow the 32-bit conversions, never return an earlier time than the call before, and stay within a quarter of a second of the last calibration; no call is undefined.", "quantifier": "every clock rate, every accepted interval, every sequence of cycle counts and times of day", "why_tests_cant": "depends on clock rate and on rounding at the edge of the interval; tests see one machine", "anchors": ["include/Lintel/Clock.hpp:Clock::todccTfrac_incremental", "src/Clock.cpp:Clock::setRecalibrateIntervalSeconds", "src/Clock.cpp:Clock::todccTfrac_recalibrate"]}
{"id": "C79", "title": "Clocks told to use the time of day do", "statement": "With AUFSO_UseTod, and with AUFSO_Slow or AUFSO_WarnSlow when frequency scaling is possible, every todccTfrac() of every Clock that could be constructed returns the system's time of day.", "quantifier": "every mode, every sequence of cycle counts and times of day, with and without calibrateClock()", "why_tests_cant": "needs a freshly booted machine, or a program that never calibrates; undefined conversions need not show", "anchors": ["src/Clock.cpp:Clock::isCalibrated", "src/Clock.cpp:Clock::Clock", "src/Clock.cpp:Clock::todccTfrac_recalibrate"]}
{"id": "C80", "title": "TfracToDouble is the nearest double and keeps the order of times", "statement": "TfracToDouble(t) is t/2^32 seconds rounded once to a nearest double, so a later time never converts to a smaller number.", "quantifier": "every 64-bit time", "why_tests_cant": "2^64 times", "anchors": ["include/Lintel/Clock.hpp:Clock::TfracToDouble"]}
{"id": "C81", "title": "Random doubles keep to their documented ranges", "statement": "randDouble() and randDoubleOpen() lie in [0,1) and take 2^32 evenly spaced values; randDoubleClosed() lies in [0,1] and reaches both ends; randDoubleOpen53() lies in [0,1) with 53 independent bits; randDoubleClosed53() lies in [0,1] and reaches both ends.", "quantifier": "every word the generator can draw, every rounding to nearest", "why_tests_cant": "the ends have probability 2^-32 and 2^-53", "anchors": ["include/Lintel/RandomBase.hpp:RandomTempl::randDoubleOpen", "include/Lintel/RandomBase.hpp:RandomTempl::randDoubleClosed53"]}
{"id": "C82", "title": "Every operation of an atomic counter is defined for every value", "statement": "Whatever the counter holds and whatever operand is given, the operators and fetch functions of Atomic<T> have defined results, for signed T as for unsigned T.", "quantifier": "every value, every operand, every schedule", "why_tests_cant": "overflow is undefined only at single values of the counter, and need not show", "anchors": ["include/Lintel/AtomicCounter.hpp:Atomic"]}
{"id": "C83", "title": "The spin locks in assembly exclude and make progress", "statement": "With GlibcPosixSpinLock or SpinLockYield shared by up to 2^31 threads, at most one thread is between lock and unlock at any time, however long others wait; whenever nobody holds the lock, any waiting thread that is left to run gets it within three steps.", "quantifier": "every number of threads up to 2^31, every interleaving, unbounded spinning", "why_tests_cant": "interleavings are unbounded; counters may wrap only after billions of spins", "anchors": ["include/Lintel/Lock.hpp:GlibcPosixSpinLock", "include/Lintel/Lock.hpp:SpinLockYield"]}
{"id": "C84", "title": "Any text can be interned, whatever was interned before", "statement": "Constructing a ConstantString succeeds for every text that fits memory; whether it does not depend on which strings were created earlier.", "quantifier": "every history of created strings, every text", "why_tests_cant": "depends on how full the pool's buffers are; tests create few and short strings", "anchors": ["src/ConstantString.cpp:ConstantString::init"]}
{"id": "C85", "title": "operator< on ConstantString is a strict weak order", "statement": "For all ConstantStrings, <, <=, > and >= order by the bytes of the texts, so that sorting and ordered containers of ConstantStrings are defined.", "quantifier": "all triples of texts, with any bytes", "why_tests_cant": "needs three texts with embedded zero bytes", "anchors": ["include/Lintel/ConstantString.hpp:ConstantString::compare", "include/Lintel/ConstantString.hpp:operator<"]}
{"id": "C86", "title": "Clearing a column's set makes zeroCube treat it as any", "statement": "zeroCube(hts, hut) with one of the sets of hut cleared out gives the cube entries in which that field is a wildcard, as its comment says; with all sets filled it gives an entry for every wanted wildcarding of every combination.", "quantifier": "every base data, every tuple of sets", "why_tests_cant": "the cube of arbitrary data; the cleared set is not tested", "anchors": ["include/Lintel/StatsCube.hpp:StatsCube::zeroCube"]}
{"id": "C87", "title": "A cube's statistics objects live exactly as long as their entries", "statement": "Over every history of add, addToCube, cube, zeroCube, walks, prune and clear, no statistic is used after its deletion or deleted twice, and after clear() (or destruction) none is left.", "quantifier": "every history of calls", "why_tests_cant": "leaks and uses after deletion need not show", "anchors": ["include/Lintel/StatsCube.hpp:StatsCube::prune", "include/Lintel/StatsCube.hpp:StatsCube::clear", "include/Lintel/HashTupleStats.hpp:HashTupleStats::prune"]}
{"id": "C88", "title": "A sketch from the public constructor never leaves its arrays", "statement": "For every error and bound that StatsQuantile's constructor accepts, no sequence of add, reset, merge of filled sketches and getQuantile accesses memory outside the sketch's arrays.", "quantifier": "all constructor arguments, all sequences of calls", "why_tests_cant": "depends on the sizes the constructor finds by search; tests use a few arguments, mostly with few values", "anchors": ["src/StatsQuantile.cpp:StatsQuantile::StatsQuantile", "src/StatsQuantile.cpp:StatsQuantile::collapse", "src/StatsQuantile.cpp:StatsQuantile::getQuantile"]}
{"id": "C89", "title": "Merging an empty sketch changes nothing", "statement": "add(const Stats &) with a StatsQuantile that has no values leaves the sketch it is called on as it was.", "quantifier": "every sketch, every empty sketch", "why_tests_cant": "the empty sketch is not tested, and its read before the array usually goes unnoticed", "anchors": ["src/StatsQuantile.cpp:StatsQuantile::add"]}
{"id": "C90", "title": "The documented error of quantiles", "statement": "With N <= Nbound values added to a StatsQuantile(quantile_error, Nbound), getQuantile(phi) returns the element whose position is between ceil((phi-quantile_error)*N) and ceil((phi+quantile_error)*N); merged sketches at most double the error.", "quantifier": "all errors, bounds, orders and values, all phi in [0,1], all rounding of doubles allowed by IEEE 754", "why_tests_cant": "the constructor's search in double arithmetic and the adversarial order of values cannot be enumerated", "anchors": ["include/Lintel/StatsQuantile.hpp:StatsQuantile", "src/StatsQuantile.cpp:StatsQuantile::StatsQuantile", "src/StatsQuantile.cpp:StatsQuantile::getQuantile"]}
{"id": "C91", "title": "Stats in double arithmetic keep their order", "statement": "With double arithmetic, min <= mean <= max and variance >= 0 hold for every non-empty Stats, count, min and max are exact, and the result of merging does not depend on order or grouping.", "quantifier": "all sequences of doubles, all merge trees, all roundings allowed by IEEE 754", "why_tests_cant": "rounding errors depend on all the values and their order", "anchors": ["src/Stats.cpp:Stats::add", "src/Stats.cpp:Stats::mean", "src/Stats.cpp:Stats::variance"]}
{"id": "C92", "title": "A uniform histogram of doubles never leaves its bins", "statement": "With double arithmetic, for every range and number of bins, adding any double to a StatsHistogramUniform accesses only existing bins and counts the value in the bin whose interval contains it.", "quantifier": "all ranges, numbers of bins, values and roundings allowed by IEEE 754", "why_tests_cant": "needs a value next to a bin edge and a range for which the division rounds up", "anchors": ["src/StatsHistogram.cpp:StatsHistogramUniform::sampleBin", "src/StatsHistogram.cpp:StatsHistogramUniform::add"]}
{"id": "C93", "title": "Correlation is found whichever its sign", "statement": "StatsSeries::iscorrelated95(lag) rejects the hypothesis of no correlation exactly when the autocorrelation at that lag is further from zero than the two-sided 95% bound for the number of values.", "quantifier": "all series, all lags", "why_tests_cant": "tests use one positively correlated series", "anchors": ["src/StatsSeries.cpp:StatsSeries::iscorrelated95"]}
{"id": "C94", "title": "Exponential moving averages", "statement": "With exact arithmetic, getEMA(i) is the mean of the values while there are at most 1/decay_rate of them, and afterwards each new value counts decay_rate and all before it 1 - decay_rate; it is always between the smallest and the largest value, and minEMA/maxEMA are the smallest and largest of the averages.", "quantifier": "all lists of decay rates, all sequences of values", "why_tests_cant": "the closed form is over sequences of any length; tests check a few values", "anchors": ["src/StatsEMA.cpp:StatsEMA::add", "include/Lintel/StatsEMA.hpp:StatsEMA::updateEMA", "src/StatsEMA.cpp:StatsEMA::minEMA"]}
{"id": "C95", "title": "Statistics are made by the longest registered name", "statement": "StatsMaker::make(name) makes what was last set for the longest of: the name itself and the names left when it is cut before a group of dashes; if nothing is set for any of these, what was last set for \"default\", and else a Stats. It always ends, never reads an uninitialised setting, and does not depend on what was made before.", "quantifier": "all sequences of setMode and make calls, all names", "why_tests_cant": "names and registration orders cannot be enumerated", "anchors": ["src/StatsMaker.cpp:StatsMaker::getDefaultStatDef", "src/StatsMaker.cpp:StatsMaker::getCreateStatDef", "src/StatsMaker.cpp:StatsMaker::make"]}
{"id": "C96", "title": "stringToInteger converts numerals and nothing else", "statement": "stringToInteger<T>(s, base) returns x exactly when s spells x in that base (optional sign, digits, 0x allowed for base 16) and x fits in T; every other string aborts.", "quantifier": "every string, every integer type, bases 8, 10 and 16", "why_tests_cant": "strings and types cannot be enumerated; trailing characters, signs and 8-bit types are each special", "anchors": ["include/Lintel/StringUtil.hpp:stringToInteger"]}
{"id": "C97", "title": "The debug string makes the settings it spells", "statement": "LintelLog::parseDebugString of comma separated entries name or name=level makes exactly those settings, in order, a bare name meaning level 1.", "quantifier": "every list of entries", "why_tests_cant": "lists of names and levels cannot be enumerated", "anchors": ["src/LintelLog.cpp:LintelLog::parseDebugString"]}
{"id": "C98", "title": "A hash table can be scanned a part at a time", "statement": "An iterator stepped for a while, brought back with partialReset() after updates and stepped on, ends having shown every entry that was in the table all the time and nothing that never was; pausing only where atStartOfChain() makes it show each exactly as often as it is stored, and end after at most as many pauses as the table has chains.", "quantifier": "every table, hash function and key equality, every choice of pauses and updates", "why_tests_cant": "a test can pause at a few places with a few updates; whether an entry is missed depends on where it hashes relative to the pause", "anchors": ["include/Lintel/HashTable.hpp:partialReset", "include/Lintel/HashTable.hpp:atStartOfChain", "include/Lintel/HashTable.hpp:atEndOfChain", "include/Lintel/HashTable.hpp:reset"]}
{"id": "C99", "title": "A double accepted as integral is converted to the integer it is near to", "statement": "isDoubleIntegral(d, size) accepts exactly the finite doubles within a sixteenth of an integer that a double holds with four bits to spare and that fit in a type of that size; any accepted double is converted by convertDoubleLong / convertDoubleLongLong to that integer; and those conversions return the nearest integer, halves away from zero, for every double that fits.", "quantifier": "every double, both sizes", "why_tests_cant": "the interesting doubles are single values next to halves and binade boundaries, and 2^64 of them cannot be enumerated", "anchors": ["src/MathSpecialFunctions.cpp:isDoubleIntegral", "src/MathSpecialFunctions.cpp:convertDoubleLong", "src/MathSpecialFunctions.cpp:convertDoubleLongLong"]}
{"id": "C100", "title": "The inverse error function inverts", "statement": "inverseErf(y) returns, for every y strictly between -1 and 1, an x with erf(x) = y up to a relative error of about 1e-14, and NaN outside; inverseUnitNormalCDF(x) does the same for the normal distribution.", "quantifier": "every argument, whatever the library's erf, exp, log and sqrt", "why_tests_cant": "arguments cannot be enumerated, and a call that never returns is not told from a slow one by a test", "anchors": ["src/MathSpecialFunctions.cpp:inverseErf", "include/Lintel/MathSpecialFunctions.hpp:inverseUnitNormalCDF"]}
{"id": "C101", "title": "A failed assertion calls the hooks once, in order, and never goes on", "statement": "When an assertion fails, the hooks registered with AssertBoostFnBefore are called once each in order of registration, then the message is printed, then those registered with AssertBoostFnAfter are called; then the program dies. A hook that throws ends this and its exception leaves the assertion, after which a later failed assertion behaves like the first. An assertion that fails inside a hook kills the program without calling hooks. Control never passes the failed assertion.", "quantifier": "all registrations, all hooks (writing, throwing, asserting, registering), all histories of caught failures, every kind of message", "why_tests_cant": "hooks are arbitrary code and histories of caught failures unbounded; a dying program ends the test", "anchors": ["src/AssertBoost.cpp:AssertBoostFail", "src/AssertBoost.cpp:AssertBoostCleanupRecurse", "include/Lintel/AssertBoost.hpp:INVARIANT", "include/Lintel/AssertBoost.hpp:FATAL_ERROR"]}
{"id": "C102", "title": "The message of an assertion exception is the formatted text", "statement": "The message of an exception thrown by AssertExceptionMsg(condition, (format, ...)) is the text printf would print.", "quantifier": "every text", "why_tests_cant": "texts cannot be enumerated; only long ones go wrong", "anchors": ["src/AssertException.cpp:AssertExceptionT::stringPrintF"]}
{"id": "C103", "title": "LintelLog can be used first from several threads", "statement": "When several threads use LintelLog for the first time at once, exactly one set of log data is made, every thread works on it once it is complete, and no thread waits for ever.", "quantifier": "any number of threads, every schedule, every reordering of memory accesses the mutex operations allow", "why_tests_cant": "the code itself asks \"is this actually safe?\"; schedules and reorderings cannot be forced by a test", "anchors": ["src/LintelLog.cpp:LintelLog::maybeInitInstance"]}
{"id": "C104", "title": "Log levels given in XML", "statement": "LintelLogXML::parseXML sets the category of the element to the level its attribute spells, any level setDebugLevel accepts, to 1 if it has none, and rejects everything else.", "quantifier": "every element, every category and level text", "why_tests_cant": "texts cannot be enumerated", "anchors": ["src/LintelLogXML.cpp:LintelLogXML::parseXML", "src/XMLUtil.cpp:strGetXMLAttr"]}
{"id": "C105", "title": "Logarithmic histograms count every value in its bin", "statement": "A StatsHistogramLog over [low, high) has bins of equal ratio; bin i counts exactly the values from binlow(i) up to binhigh(i) added since the last reset (end bins take everything beyond if it is not scalable); a scalable one widens its range so that all values lie inside, without moving any value to a wrong bin; the counts sum to count().", "quantifier": "every number of bins, all positive bounds low < high, every sequence of add and reset, scalable or not", "why_tests_cant": "the values, the number of rescalings and their directions are unbounded", "anchors": ["src/StatsHistogram.cpp:StatsHistogramLog::add", "src/StatsHistogram.cpp:StatsHistogramLog::sampleBin", "include/Lintel/StatsHistogram.hpp:StatsHistogramLog"]}
{"id": "C106", "title": "Percentiles and modes of histograms", "statement": "percentile(p) of a StatsHistogramLog lies in the bin of the value of rank p*count() rounded up and does not decrease with p, and never reads outside the bins; mode() of either kind of histogram is the middle of the fullest bin.", "quantifier": "every histogram, every sequence of calls, every p in [0,1]", "why_tests_cant": "p is a real number and histories are unbounded", "anchors": ["src/StatsHistogram.cpp:StatsHistogramLog::percentile", "src/StatsHistogram.cpp:StatsHistogramLog::mode", "src/StatsHistogram.cpp:StatsHistogramUniform::mode"]}
{"id": "C107", "title": "Logarithmic histograms that sum up data", "statement": "After any calls on a StatsHistogramLogAccum, value(i) is the sum of the data added with an index in bin i, and (*this)[i] is their number.", "quantifier": "every number of bins, all positive bounds low < high, every sequence of add(index, data) and reset", "why_tests_cant": "the values and histories are unbounded", "anchors": ["src/StatsHistogram.cpp:StatsHistogramLogAccum::add", "src/StatsHistogram.cpp:StatsHistogramLogAccum::reset"]}
{"id": "C108", "title": "Timed locking takes the mutex or gives up at the deadline", "statement": "On systems without it, timedLock(deadline) is built from trylock and sleeping: it returns true only after a try took the mutex, false only after a try found it busy with the deadline reached; it tries at least once, sleeps at most 10 ms between tries and never past the deadline, and it ends.", "quantifier": "every deadline, every behaviour of the mutex and of the clock", "why_tests_cant": "the outcomes depend on what other threads and the clock do between any two tries", "anchors": ["src/PThread.cpp:pthread_mutex_timedlock", "src/PThread.cpp:clock_gettime", "include/Lintel/PThread.hpp.in:PThreadMutex::timedLock"]}
{"id": "C109", "title": "PThreadMutex counts contention exactly", "statement": "getContention() is the number of calls to lock() that found the mutex taken and have returned, modulo 2^32, although the counter is a plain int; the mutex is held by one thread at a time; locking it twice in a thread stops an error-checking mutex and blocks a plain one for ever.", "quantifier": "any number of threads, every interleaving of lock, trylock and unlock", "why_tests_cant": "lost updates only show under particular schedules", "anchors": ["include/Lintel/PThread.hpp.in:PThreadMutex", "src/PThread.cpp:PThreadMutex"]}
{"id": "C110", "title": "A PThread runs once per start and join returns its result", "statement": "Every successful start() makes one thread call run() once at most; join() returns what run() of the thread started last returned; start() may be called several times as long as the previous thread was joined; misuse stops the program, and the object may be destroyed when its threads have called run().", "quantifier": "every sequence of start, join, setDetached and destruction, every schedule of the threads", "why_tests_cant": "schedules cannot be enumerated", "anchors": ["src/PThread.cpp:PThread", "include/Lintel/PThread.hpp.in:PThread"]}
{"id": "C111", "title": "PThreadNoSignals starts a thread with all signals blocked", "statement": "PThreadNoSignals::start() starts the thread with every signal blocked, and the caller's signal mask afterwards is what it was before.", "quantifier": "every signal mask, whether or not the thread can be made", "why_tests_cant": "only the failing case goes wrong", "anchors": ["src/PThread.cpp:PThreadNoSignals::start"]}
{"id": "C112", "title": "The number of processors", "statement": "PThreadMisc::getNCpus() is the number NCPUS spells if the variable is set, otherwise the number of lines of /proc/cpuinfo that start with \"processor\\t: \"; a first answer is kept; if neither is there the program stops or, when allowed, -1 is returned.", "quantifier": "every value of the variable, every content of the file", "why_tests_cant": "contents cannot be enumerated", "anchors": ["src/PThread.cpp:PThreadMisc::getNCpus"]}
{"id": "C113", "title": "Program options have the value they were given last", "statement": "The value of a ProgramOption is the last one given since its construction by set() or by an accepted command line or configuration file that names it, else its default; a line is rejected exactly when a name of an option occurs twice, is ambiguous, or something unexpected is left over; a rejected line changes no option; parseCommandLine returns what it did not recognise in order.", "quantifier": "every sequence of constructing, setting and parsing, for options that stay in existence and whose names do not start with a comma", "why_tests_cant": "programs and command lines cannot be enumerated; options register each other through global lists in whatever order they are constructed", "anchors": ["src/ProgramOptions.cpp:parseCommandLine", "src/ProgramOptions.cpp:processOptions", "src/ProgramOptions.cpp:runProgramOptionInitFns", "include/Lintel/ProgramOptions.hpp:ProgramOption"]}
{"id": "C114", "title": "readN and read0 fill the buffer and nothing else", "statement": "posix::readN(fd, buf, n) reads until n bytes are there or the file ends, however the system cuts the data into pieces: it returns min(n, bytes left), the buffer holds those bytes in order, and nothing past buf[n-1] is written; read0 returns only with the buffer full.", "quantifier": "every content of the file, every n, every way read() may return short counts or fail", "why_tests_cant": "short reads come from signals, pipes and network file systems; a test with a plain file never sees one", "anchors": ["include/Lintel/Posix.hpp:posix::readN", "include/Lintel/Posix.hpp:posix::read0"]}
{"id": "C115", "title": "The 64-bit stdio replacements report success and failure", "statement": "fseek64 returns 0 exactly when the stream was moved to the position asked for and -1 exactly when it could not be and stays; ftell64 gives the position and does not move; fseek64(ftell64) restores it; fopen64 accepts exactly the modes r, rb, w and wb.", "quantifier": "every position, offset, whence and mode", "why_tests_cant": "offsets cannot be enumerated, and tests use SEEK_SET", "anchors": ["src/stdio_64.cpp:fseek64", "src/stdio_64.cpp:ftell64", "src/stdio_64.cpp:fopen64"]}
{"id": "C116", "title": "Moments and density of the truncated log-normal distribution", "statement": "momentLogNormal is the moment of the log-normal distribution cut off at the limit, that is the integral of x^r times the density up to the limit divided by the integral of the density; logNormal is the normalised density.", "quantifier": "every mean, positive sigma, positive limit, power and point (real numbers)", "why_tests_cant": "equality of an analytic formula and an integral for all parameters", "anchors": ["src/drawRandomLogNormal.cpp:momentLogNormal", "src/drawRandomLogNormal.cpp:logNormal"]}
{"id": "C117", "title": "The equation solver's success means a solution", "statement": "solve2 gives the solution of every regular system of two equations and fails for singular ones; findZero goes along Newton steps and returns true only at a zero within the tolerance; solveLogNormal finds the distribution with the desired mean and sigma, and fails if none exists.", "quantifier": "every system, every function with its Jacobian, every mean, sigma and limit (real numbers)", "why_tests_cant": "functions and systems cannot be enumerated", "anchors": ["src/drawRandomLogNormal.cpp:solve2", "src/drawRandomLogNormal.cpp:findZero", "src/drawRandomLogNormal.cpp:solveLogNormal"]}
{"id": "C118", "title": "Drawing a truncated log-normal number", "statement": "normal_random_limit gives the first Box-Muller number not above the limit among the points drawn inside the unit circle except its centre; the number drawRandomLogNormal prints is positive and not above the limit; with wrong arguments it prints its usage.", "quantifier": "every sequence of random numbers, every limit, every command line", "why_tests_cant": "the rejected points are rare for some limits and the sequences cannot be enumerated", "anchors": ["src/drawRandomLogNormal.cpp:normal_random_limit", "src/drawRandomLogNormal.cpp:main"]}
{"id": "C119", "title": "Expanding bracketed numbers gives all combinations in the documented order", "statement": "expandString of a text with any number of bracketed lists of integers, ranges and ranges with steps returns every combination, the later brackets changing faster, numbers padded with zeros when both ends of the range have the same length; an empty range or a step that does not lead to its end is an error. Of several texts, those with fewer brackets come first. It ends on every input, with an error or with no bracket left to expand.", "quantifier": "every list of texts; numbers that perl represents exactly", "why_tests_cant": "texts, nesting and sizes of ranges are unbounded, and texts with malformed brackets too many to sample", "anchors": ["src/Text/Expand.pm:expandString"]}
{"id": "C120", "title": "Every exit of a process is reported once", "statement": "With Lintel::ProcessManager, each process is reaped once with the status it exited with, and its exit function is called once with this status; children lists those started and not yet reaped; wait returns exactly what it reaped itself, never nothing unless it has a time limit; waitAll returns when no process is left; wait dies when called without processes. A wait that runs while a process has exited reaps one soon.", "quantifier": "every program, all exit functions (which may start processes and wait), every order of exits and steps, numbers of processes used again", "why_tests_cant": "exits may come between any two steps, and exit functions may nest without bound", "anchors": ["src/Lintel/ProcessManager.pm:wait", "src/Lintel/ProcessManager.pm:fork", "src/Lintel/ProcessManager.pm:waitAll"]}
{"id": "C121", "title": "Waiting for one process, or for all, gives their statuses", "statement": "waitPid returns the status the process exited with and does not fail; waitAll returns the status of every process the manager had; wait does not fail while a process runs.", "quantifier": "every program, all exit functions, every order of exits and steps", "why_tests_cant": "the failures need nested calls, numbers used again, or a stale $! at the right time", "anchors": ["src/Lintel/ProcessManager.pm:waitPid", "src/Lintel/ProcessManager.pm:waitAll", "src/Lintel/ProcessManager.pm:wait"]}
{"id": "C122", "title": "lintel-flock: one at a time", "statement": "Of all runs of lintel-flock on a lock file that nobody killed and whose background process may signal the calling script, at most one is inside at any time: its command is running, or its calling script was told success and has neither unlocked nor ended. The lock is never left behind: once no program and no background process has it, the next one who asks gets it, and a script that ends without unlocking releases it. (False otherwise: killing lintel-flock frees the lock while its command goes on, and a background process that may not signal the script takes it for gone.)", "quantifier": "for all histories of any number of runs in both modes, with kills, failures of fork, exec and flock, time-outs and unlocks in any order", "why_tests_cant": "Exclusion is about all interleavings of many processes; a test script runs a handful of them and never kills one at a bad moment.", "anchors": ["src/lintel-flock.in:72-175", "src/Lintel/File/Lock.pm:71-104"]}
{"id": "C123", "title": "lintel-flock: waiting and exit codes", "statement": "getLock with a waiting time asks at least once, returns a handle exactly when it was granted the lock before giving up, and gives up exactly at the first refusal after the waiting time. lintel-flock exits with what its command came to: 0 exactly if the command ended with 0, its exit code, or 233 after a signal; a run that gave up waited its time and did not run the command. (False: that getLock dies when flock fails, since a failure counts as a refusal when there is a waiting time; that the exit code tells whether the command was run.)", "quantifier": "for all waiting times, all sequences of the kernel's answers and clock readings, all statuses and all histories", "why_tests_cant": "Failures of flock cannot be provoked by a test, and the statuses and interleavings are too many.", "anchors": ["src/Lintel/File/Lock.pm:71-104", "src/lintel-flock.in:72-110"]}
{"id": "C124", "title": "batch-parallel: running things in parallel", "statement": "batch-parallel started with -j N for the things to build starts them in order, none twice and none left out, never more than N at a time; it tells the module of each process that ended exactly once, with success exactly for status 0; when it returns everything has been started and has ended; it returns if every process ends, forks work and the module does not die. With -n nothing is started. (False: that -j 0 is refused before starting, or that the exit code tells of failures.)", "quantifier": "for all lists of things, all N, all orders of ends, all statuses, process ids used again, failures of fork, deaths of the module", "why_tests_cant": "The order in which processes end is up to the system; tests use quick jobs that end in order.", "anchors": ["src/batch-parallel.in:217-265"]}
{"id": "C125", "title": "batch-parallel: shuffling the things", "statement": "Shuffling the things to build loses nothing and doubles nothing, whatever the random numbers, and every order can come out. (The second is false: no thing ever stays at its place.)", "quantifier": "for all lists and all sequences of random numbers", "why_tests_cant": "A missing order cannot be told from an unlikely one by running it.", "anchors": ["src/BatchParallel/common.pm:21-27"]}
{"id": "C126", "title": "batch-parallel: dividing the things among jobs of a queueing system", "statement": "When the things are divided into groups for a queueing system, each job has at least one and at most the group size of things, and all the jobs together do every thing exactly once; there are no more groups than asked for, or than the limits allow when nothing is asked for.", "quantifier": "for all numbers of things, group sizes, numbers of groups, widths and limits", "why_tests_cant": "Off-by-one errors show only at particular remainders.", "anchors": ["src/batch-parallel.in:322-380", "src/batch-parallel.in:430-478"]}
{"id": "C127", "title": "batch-parallel: destinations are whole", "statement": "If no two things have the same destination then at every moment, also if batch-parallel is stopped, a destination is what it was or completely what its process made when it ended with success, or is missing with the complete file beside it; a process that failed changes nothing. A thing is built exactly if its destination is missing or older than its source. (False: that a destination that existed exists at all times; that a source changed while being read, or in the same second, is built again; anything like this with shared destinations.)", "quantifier": "for all histories of any number of things with writes, ends, renames and stops in any order", "why_tests_cant": "A test would have to stop the program between two particular system calls.", "anchors": ["src/BatchParallel/common.pm:92-107", "src/BatchParallel/common.pm:140-154", "src/BatchParallel/common.pm:239-270"]}
{"id": "C128", "title": "batch-parallel compress: contents are not lost", "statement": "With checking (the default), if no two sources have the same destination: each source is still there and its destination untouched, or its destination unpacks to exactly the bytes the source unpacks to, and only then is the source removed; all other files are as before. (False: for sources such as a and a.gz, which both become a.bz2; for a source whose unpacker fails after some bytes; for an existing destination, which is always replaced.)", "quantifier": "for all file systems, lists of sources, contents and types, whatever the packing programs do", "why_tests_cant": "Data loss needs failing tools or unlucky names, and contents are unbounded (they are compared by blocks of 64 kB).", "anchors": ["src/BatchParallel/compress.pm:58-167"]}
{"id": "C129", "title": "batch-parallel jobsfile: output files", "statement": "Each line of the jobs file has its own output file; up to maxjobs (or the number of lines) the names have equal lengths and sort as the lines do, with no more digits than needed. Exactly the command lines without an output file are run; with maxjobs, a job that has its output is not run again when lines are added. (False without maxjobs: going from 999 to 1000 lines runs finished jobs again; the documented number of digits is wrong at powers of ten.)", "quantifier": "for all numbers of lines, values of maxjobs and sets of existing output files", "why_tests_cant": "The errors are at powers of ten; files that long are not in tests.", "anchors": ["src/BatchParallel/jobsfile.pm:93-114"]}
{"id": "C130", "title": "batch-parallel jobsfile: commands and definitions", "statement": "The lines that do not begin with # are the jobs, with their line numbers. If no replacement contains a defined word, every whole word of a command that is defined is replaced by its definition, all at once, whatever the order of the hash. (False otherwise: the command then depends on the random order of a perl hash.)", "quantifier": "for all files, definitions and orders of the hash", "why_tests_cant": "Perl's hash order changes from run to run; a test that passes may fail the next time.", "anchors": ["src/BatchParallel/jobsfile.pm:74-90"]}
{"id": "C131", "title": "batch-parallel jobsfile: the output is that of one complete run", "statement": "However many processes run the same job at once and whenever they are killed, the output file is missing or is the complete output of one run that ended with status 0, and once there it stays there. Run one after the other, no job is run again after success. (False: that an output never changes.)", "quantifier": "for all interleavings of any number of processes", "why_tests_cant": "The race is between two system calls of different processes.", "anchors": ["src/BatchParallel/jobsfile.pm:128-162"]}
{"id": "C132", "title": "batch-parallel tar: the groups", "statement": "The groups, one after the other, are the files in the order found; none is empty, none has an estimated size above the target, each is full (the next file would not fit), and no two have the same destination; a file that is too large alone stops everything. (False: that the tar files are not larger than the target; they may be five times as large.)", "quantifier": "for all lists of files, sizes, targets and options", "why_tests_cant": "Sizes and boundaries are unbounded; the estimate is wrong only for many small files.", "anchors": ["src/BatchParallel/tar.pm:144-163", "src/BatchParallel/tar.pm:191-213"]}
{"id": "C133", "title": "batch-parallel tar: the files packed", "statement": "tar is told to read exactly the files of the group, each stored under the rest of its path. (True without options and for absolute paths of which more than the root is taken off. False for relative paths: the changes of directory add up, and two files of one directory are never both read; false when only the root is taken off; names beginning with - are not refused in directories; two files may be stored under one name.)", "quantifier": "for all groups of paths, working directories and options", "why_tests_cant": "Tests use one shape of paths.", "anchors": ["src/BatchParallel/tar.pm:116-142", "src/BatchParallel/tar.pm:165-176"]}
{"id": "C134", "title": "Known hosts: has_host_key and clear_host_key agree", "statement": "has_host_key(host) is true exactly if a line of the file begins with the name (case aside, each dot standing for any character) ended by a comma or a space, or, where ssh supports them, is a hashed line of the name or of its address. clear_host_key(host) removes exactly those lines and the ones that end their list of names with the address, keeps every other line in its order, and writes the file and its message exactly if it removed something. Afterwards has_host_key(host) is false and another clear_host_key(host) changes nothing. Both die for a host that cannot be resolved.", "quantifier": "for all files, host names, addresses and hash functions", "why_tests_cant": "Files are unbounded, and lines are spliced out of the array that is walked by index; hashed lines depend on salts.", "anchors": ["src/Lintel/Net/SSH/KnownHostsFile.pm:35-96", "src/Lintel/Net/SSH/KnownHostsFile.pm:98-110"]}
{"id": "C135", "title": "Known hosts: what ssh will find", "statement": "As documented: has_host_key is true exactly if ssh finds the host in the file, and after clear_host_key ssh does not find it. (True for unhashed lines that name the host first, and, for the other direction, host names without dots. False: the second name of a line is neither found nor cleared; a dot of the name matches any character, so the keys of other hosts are reported and removed.)", "quantifier": "for all files and host names", "why_tests_cant": "Tests use one line with one name; the wrong matches need particular pairs of names.", "anchors": ["src/Lintel/Net/SSH/KnownHostsFile.pm:68-80", "src/Lintel/Net/SSH/KnownHostsFile.pm:124-138"]}
{"id": "C136", "title": "batch-parallel make: the commands run", "statement": "For each file that the transform changes, the commands given are run in their order, up to the first that fails, with every $< replaced by the file, every $@ by the new output and every $TMP by the job's directory, and nothing else changed; the output is reported as made exactly if all commands returned 0. Commands without $< or $@ are refused, so that each job names its input and its output. (False for file names with $@ or $TMP in them, which are replaced again.)", "quantifier": "for all command texts, file names and outcomes of commands", "why_tests_cant": "The three substitutions act on each other's results; names and commands are unbounded.", "anchors": ["src/BatchParallel/make.pm:58-66", "src/BatchParallel/make.pm:84-96", "src/BatchParallel/make.pm:110-132"]}
{"id": "C137", "title": "batch-parallel make: -n shows what would be done", "statement": "With -n, the commands printed for each file are the ones that would be run for it. (True for the first file only: the loop variable is an alias of the stored commands, so all later files are shown with the commands of the first.)", "quantifier": "for all lists of files and commands", "why_tests_cant": "The aliasing shows only from the second file on, and only in a run that does nothing.", "anchors": ["src/BatchParallel/make.pm:114-132", "src/BatchParallel/make.pm:150-159"]}
{"id": "C138", "title": "batch-parallel checksum: what a checksum file says", "statement": "A checksum file that was made holds, for each digest asked for (sha1 if none), in the order of their names, one line with the digest of the content of the file and its name (without directories, if asked), and with uncompressed-also for a .gz or .bz2 file the same lines for what the uncompressing command writes, under the name without its suffix. (False for names that end in white space, whose lines hold the digest of another file, or in |, which are run as commands; and a failing uncompressing command is not noticed.)", "quantifier": "for all options, paths, contents and digest functions", "why_tests_cant": "Contents and names are unbounded; the wrong file is summed only for unusual names.", "anchors": ["src/BatchParallel/checksum.pm:35-61", "src/BatchParallel/checksum.pm:92-133"]}
{"id": "C139", "title": "batch-parallel checksum: which files have one", "statement": "After a run in which all jobs ended well, every file asked for that is not itself a checksum file has its checksum file, nothing else was made, and another run finds nothing to do. (False: that the checksum file is made again when its file has changed.)", "quantifier": "for all sets of files and match expressions", "why_tests_cant": "Repeated runs over trees that contain the output of the runs before.", "anchors": ["src/BatchParallel/checksum.pm:63-83"]}
{"id": "C140", "title": "Plot ticks: places", "statement": "For a plot of less than twelve days that begins after 1970, the ticks stand at equal distances: the first less than a step after the start, the last less than a step before the end, all between them, at most twenty (twelve from three hours on); in a zone of whole hours without clock changes they are round local times, multiples of the step since midnight.", "quantifier": "for all starts, ends and time zones", "why_tests_cant": "Starts, ends and zones are unbounded, and the first tick is sought from a midnight up to three days earlier.", "anchors": ["src/Plot/Mercury/Tics.pm:10-60"]}
{"id": "C141", "title": "Plot ticks: labels", "statement": "Each label says the local time of the place where it stands: a date stands at midnight of that day. (True for places relative to the start and for steps below a day, in any zone, if the program does not die; it does not in a zone of whole hours if nothing between 0:00 and 1:00 is plotted or the step is an hour or more. False: after a clock change, dates at absolute places stand an hour off; a plot of the minutes after midnight dies, and so does every day in a zone of half hours.)", "quantifier": "for all starts, ends and time zones", "why_tests_cant": "Tests run in one zone at one time of the year.", "anchors": ["src/Plot/Mercury/Tics.pm:60-93"]}
{"id": "C142", "title": "Plot ticks: long plots", "statement": "From twelve days to twelve weeks there is a tick with its date on each day of the week of the first, at least six days apart, before the end; without clock changes they are exactly the midnights, seven days apart. Above twelve weeks the last tick is the end, the others are on one day of the month, any two are more than an eleventh of the range apart, and there are at most twelve. (False: that the first tick is not before the start; it may be by less than an hour.)", "quantifier": "for all starts, ends, time zones and calendars", "why_tests_cant": "The loops advance hour by hour until a field of localtime fits; calendars and zones are unbounded.", "anchors": ["src/Plot/Mercury/Tics.pm:95-159"]}
{"id": "C143", "title": "lintel-latex-rebuild: what success means", "statement": "If lintel-latex-rebuild builds a document and reports success, then the last two runs of latex asked for no further run, the last latex and the bibtex before it (run exactly if the .aux mentions citations) ended without error, and the .ps and .pdf were converted from the .dvi of that last run; with --error-on-warnings none of these programs wrote a warning. (False when a step is given up after its tries: it counts as successful. And with --error-on-warnings a document whose own name says \"warning\" always fails.)", "quantifier": "for all behaviours of latex, bibtex and the converters: exit codes, outputs, time-outs and files", "why_tests_cant": "The number of rounds, the time-outs and what each run prints are unbounded; tests run one document on one machine.", "anchors": ["src/lintel-latex-rebuild.in:153-252", "src/lintel-latex-rebuild.in:267-283"]}
{"id": "C144", "title": "lintel-latex-rebuild: time-outs", "statement": "Each step is tried at most max-retries times; it is tried again exactly after attempts taken for time-outs, and otherwise its result is that of its last attempt. After max-retries attempts the build stops, as documented, and an attempt that was killed is tried again. (Both last parts are false: the step counts as successful, for every max-retries; and a killed attempt is final if the watching process is still there.)", "quantifier": "for all numbers of tries and sequences of attempts", "why_tests_cant": "It takes programs that hang, and a race between two processes.", "anchors": ["src/lintel-latex-rebuild.in:130-151", "src/lintel-latex-rebuild.in:345-356"]}
{"id": "C145", "title": "lintel-latex-rebuild: what failure leaves", "statement": "A build that ends with an error leaves no .dvi, .ps or .pdf, so nobody takes an old one for the new; and latex is run at most 23 times. (False: a build that does not converge leaves the .ps and .pdf of an earlier run.)", "quantifier": "for all behaviours of the programs and all files left by earlier runs", "why_tests_cant": "Needs failures at each step over arbitrary files of earlier runs.", "anchors": ["src/lintel-latex-rebuild.in:188-289"]}
{"id": "C146", "title": "lintel-latex-rebuild: arguments and exit code", "statement": "TeX searches the source directory first, then the --tex directories (the last one given first), the caller's TEXINPUTS, and the installed files. The exit code is 0 exactly if the document was built. (False: all errors in the arguments, such as a source directory that does not exist, exit with 0.)", "quantifier": "for all argument lists and file systems", "why_tests_cant": "The list of options is unbounded; a Makefile relies on the exit code.", "anchors": ["src/lintel-latex-rebuild.in:9-119"]}
{"id": "C147", "title": "getDeptoolInfo: the system a test runs on", "statement": "getDeptoolInfo returns what BUILD_OS and UNAME_M say if both are set, and otherwise what deptool prints; name and version are the parts before and after the first dash, and put together again give BUILD_OS; without a dash it aborts. If deptool is not present all fields are empty. (The last part is false as soon as a shell can be started: the call aborts. It also aborts if deptool prints a line of 200 characters or more for any of its variables.)", "quantifier": "for all values of the environment and all outputs of deptool", "why_tests_cant": "Environments and outputs are unbounded; the documented case without deptool does not occur where the tests run.", "anchors": ["src/TestUtil.cpp:17-84", "include/Lintel/TestUtil.hpp:62-82"]}
{"id": "C148", "title": "deptool getenv for-sh: a shell gets the values", "statement": "What deptool getenv for-sh prints sets each variable, evaluated by a shell, to the value deptool has. (False for values with a dollar sign, a double quote, a backquote or certain backslashes, such as a projects directory with a dollar sign in its name.)", "quantifier": "for all names and values", "why_tests_cant": "Values are arbitrary texts.", "anchors": ["src/deptool.in:3614-3664"]}
{"id": "C149", "title": "TEST_INVARIANT_MSG: what passes", "statement": "In a program without hooks of its own, TEST_INVARIANT_MSG1/2/3/VEC passes exactly if the first assertion of the code that fails says one of the expected texts, and then leaves no hooks; otherwise the program dies. (False if \"no invariant happened\" is among the expected texts: the macro catches its own failure. If another exception leaves the code the hook stays.)", "quantifier": "for all sequences of assertions and expected texts", "why_tests_cant": "It is the tests' own tool; a test that passes wrongly is not seen.", "anchors": ["include/Lintel/TestUtil.hpp:21-60"]}
{"id": "C150", "title": "modifyTimeNanoSec: order of modification times", "statement": "modifyTimeNanoSec gives the nanoseconds since 1970, so two files compare as their modification times do, and equal numbers mean equal times. (Undefined for times before 1677 or after 2262, which file systems with 64-bit times can have.)", "quantifier": "for all pairs of time stamps", "why_tests_cant": "Pairs of 64-bit values; overflow is silent where it occurs.", "anchors": ["include/Lintel/FileUtil.hpp:23-50"]}
{"id": "C151", "title": "safeDownCast, safeCrossCast and safeRef", "statement": "For every class hierarchy with multiple and virtual bases: safeDownCast of a pointer that is not null gives the one derived object it is the base of, which converted back is the same pointer, and aborts if there is none or more than one; null gives null. safeCrossCast never gives null: it aborts if dynamic_cast finds nothing, and for null. safeRef makes a reference exactly of pointers that are not null.", "quantifier": "for all objects, sets of subobjects and pointers", "why_tests_cant": "Hierarchies are unbounded; tests try a few.", "anchors": ["include/Lintel/PointerUtil.hpp:25-107"]}
{"id": "C152", "title": "ProcessStatistics: fresh and cached values", "statement": "Every call is answered with the size in bytes as of one reading of the kernel's file: get from a reading made for it, getCached from the last reading made by get, invalidate or the constructor. A call aborts only if the file cannot be read or the statistic is not supported.", "quantifier": "for all sequences of calls and all histories of the process", "why_tests_cant": "Sizes change between calls as the kernel likes.", "anchors": ["src/unstable/ProcessStatistics.cpp:15-65", "include/Lintel/unstable/ProcessStatistics.hpp:34-60"]}
{"id": "C153", "title": "splitSQL: the statements of a document", "statement": "splitSQL returns, for every document, exactly its statements up to and including each semicolon that is not inside quotes or a comment, in order and without losing a character, and drops the text after the last. (False: it never returns for a document that ends with a comment without end of line, or inside quotes.)", "quantifier": "for all documents", "why_tests_cant": "Documents are unbounded, and a test cannot see that a call never returns.", "anchors": ["src/Lintel/DBI.pm:334-463"]}
{"id": "C154", "title": "transaction: all or nothing", "statement": "transaction(f) returns exactly if the transaction could be begun and committed and f did not die, and then all changes of f are in the database; otherwise it dies and none is. Inside another transaction it dies before f is called, and the other goes on. (False if f commits or rolls back itself, and with statements that commit by themselves, such as create table in the default database MySQL.)", "quantifier": "for all functions, nested to any depth, and all answers of the server", "why_tests_cant": "Failures of the server at any point; functions are arbitrary.", "anchors": ["src/Lintel/DBI.pm:213-332"]}
{"id": "C155", "title": "setupSchema: versions of a schema", "statement": "setupSchema returns exactly if the schema of the target version is installed: from the recorded version by the migrations one after the other, each with its version in one transaction; from nothing by init. If it dies, the database has the schema of the version recorded. (False: on a database without the schema it always dies, after installing it; a version that cannot be read counts as none, and init is run over the existing tables; with from_version and without the configuration table nothing is migrated; a migration that does not lead higher is repeated for ever; with a server that checks statements when they are prepared nothing is ever installed.)", "quantifier": "for all sets of migrations, databases and answers of the server", "why_tests_cant": "Migrations and failures of the server are arbitrary; the author notes that there are no tests.", "anchors": ["src/Lintel/DBI.pm:540-687"]}
{"id": "C156", "title": "setConfig and getConfig", "statement": "When setConfig returns, getConfig returns the value for this key, and the old values for all other keys; setConfig dies for names with the reserved prefix; getConfig returns undef only if there is no value. (The last two are false.)", "quantifier": "for all keys, values and answers of the server", "why_tests_cant": "Failures of the server at any point.", "anchors": ["src/Lintel/DBI.pm:470-538"]}
{"id": "C157", "title": "Results of one row and one value", "statement": "oneRow returns the row if there is exactly one and dies otherwise; atMostOneRow also allows none; value returns the only value of the only row, or undef if there is no row, and requiredValue the only value, and both die for every other result or if the execution failed.", "quantifier": "for all results", "why_tests_cant": "Results are unbounded; there is no database in the tests.", "anchors": ["src/Lintel/DBI.pm:803-904"]}
{"id": "C158", "title": "Named queries and the rows of an execution", "statement": "A name that load_sths accepts runs, when called, the query that was loaded last under it; what is fetched from the result of a call are the rows of this execution in order. (False for names such as can, isa, confess and __laststh; false if the query is run again before all rows are fetched.)", "quantifier": "for all histories of loading, calling and fetching", "why_tests_cant": "Histories are unbounded; the interaction needs interleaved uses.", "anchors": ["src/Lintel/DBI.pm:181-211", "src/Lintel/DBI.pm:708-786", "src/Lintel/DBI.pm:1031-1053"]}
{"id": "C159", "title": "deptool build: the order of steps", "statement": "During depBuildParallel, whatever the processes do and however long they take: a build is started (or found up to date) only when all directories of other sources it depends on are installed; a directory is installed or tested only when it is built; every step is looked at at most once; of each kind at most one process runs; after a failure nothing is started.", "quantifier": "for all dependency graphs, stamps, and interleavings and results of the processes", "why_tests_cant": "Depends on the interleaving of processes; tests see a few graphs and one timing.", "anchors": ["src/deptool.in:1234-1314", "src/deptool.in:1567-1661", "src/deptool.in:1713-1782"]}
{"id": "C160", "title": "deptool build: the outcome", "statement": "When depBuildParallel returns, every step was done for every directory, without failure, and no process is left; it exits with an error only if a process failed; it dies for lack of progress only if the dependencies have a cycle, and never returns if they have; its own consistency check never fails. (The last is false when a stamp file is from the future.)", "quantifier": "for all dependency graphs, stamps, and interleavings and results of the processes", "why_tests_cant": "Depends on the interleaving of processes and on the shape of graphs of any size.", "anchors": ["src/deptool.in:1611-1661", "src/deptool.in:1726-1782"]}
{"id": "C161", "title": "deptool build: the loop ends", "statement": "The main loop of depBuildParallel makes at most two iterations for each step, apart from those in which processes are running and none of them ends within the time limit.", "quantifier": "for all dependency graphs, stamps, and interleavings and results of the processes", "why_tests_cant": "Termination of a loop driven by processes.", "anchors": ["src/deptool.in:1726-1773"]}
{"id": "C162", "title": "deptool build: nothing to do the second time", "statement": "After depBuildParallel has returned, running it again with unchanged sources starts no process and returns.", "quantifier": "for all dependency graphs and histories of the first run", "why_tests_cant": "Rests on the order of time stamps in all histories of the first run.", "anchors": ["src/deptool.in:1194-1223", "src/deptool.in:1234-1314", "src/deptool.in:1567-1609"]}
{"id": "C163", "title": "deptool build: as good as a clean build", "statement": "If the stamps are truthful before (in particular if nothing has been built), they are truthful after depBuildParallel, whatever fails; and when it returns, the built and installed files of every directory are those that a build from scratch would give.", "quantifier": "for all dependency graphs, earlier states, changed sources and interleavings", "why_tests_cant": "Quantifies over all earlier states of the stamps and over failures at any point.", "anchors": ["src/deptool.in:1194-1314", "src/deptool.in:1567-1661"]}
{"id": "C164", "title": "deptool: changed sources are found", "statement": "dbpFindOld finds a newer file exactly if a source was changed since the build read it. (False: changes made while the build is running, the removal of a file and changes to files whose name begins with .git or _MTN go unnoticed.)", "quantifier": "for all source trees and histories of changes", "why_tests_cant": "Histories of changes are unbounded, and timing matters.", "anchors": ["src/deptool.in:1129-1147"]}
{"id": "C165", "title": "deptool: the directories to build", "statement": "The table that depBuildParallel builds has one entry for each build directory of the projects that are needed, with the directories it needs, all of which are in the table, and no others; collecting ends even if there are cycles. (False: two projects may have the same build directory, c-x and the variant x of c; only the one found first is built.)", "quantifier": "for all dependency relations", "why_tests_cant": "Dependency relations are unbounded graphs.", "anchors": ["src/deptool.in:1118-1127", "src/deptool.in:1225-1232", "src/deptool.in:1681-1717"]}
{"id": "C166", "title": "deptool depWalk: every project once, dependencies first", "statement": "depWalk calls pre_fn and post_fn exactly once for each project that is needed, and for no other; if the dependencies have no cycle, post_fn for a project comes after post_fn for everything it depends on; it ends even if they have.", "quantifier": "for all dependency relations", "why_tests_cant": "Dependency relations are unbounded graphs.", "anchors": ["src/deptool.in:3361-3426"]}
{"id": "C167", "title": "deptool: dependency lines", "statement": "parseDependency gives back the project and the variant of a line repository/project or repository/project;variant.", "quantifier": "for all repositories, projects and variants", "why_tests_cant": "Names are unbounded.", "anchors": ["src/deptool.in:1118-1127"]}
{"id": "C168", "title": "deptool: from a build directory back to the project", "statement": "For a directory in the source tree or in a build tree, divideDir finds the project, the variant and the directory below it. (False for projects with a dash in their name: the build directory of batch-parallel is taken for the variant parallel of batch.)", "quantifier": "for all projects, variants and directories", "why_tests_cant": "Names are unbounded.", "anchors": ["src/deptool.in:1225-1232", "src/deptool.in:3341-3359"]}
{"id": "C169", "title": "deptool: running tests in parallel", "statement": "dbpDoParallelTest runs every test exactly once, never more than the given number at a time, and those that match sequential_tests while no other is running; it exits with 0 exactly if all tests pass.", "quantifier": "for all numbers of tests, patterns, and orders in which the processes end", "why_tests_cant": "Depends on the order in which processes end.", "anchors": ["src/deptool.in:1429-1551"]}
{"id": "C170", "title": "lintel-disktool: which drives are used", "statement": "All commands work on exactly the drives of the configuration (by serial number or sysfs id) that match a pattern and are not reserved, each once, in drive order; a pattern that also matches a partition makes the program die.", "quantifier": "for all configurations and sets of devices", "why_tests_cant": "The devices, serial numbers and the configuration's functions are unbounded.", "anchors": ["src/lintel-disktool.in:119-123", "src/lintel-disktool.in:232-307"]}
{"id": "C171", "title": "lintel-disktool partition: what is overwritten", "statement": "partition overwrites only drives of the configuration whose partition table is not correct, nothing that is mounted; run again after it ended well it does nothing.", "quantifier": "for all configurations, tables, mounts and failures of the commands run", "why_tests_cant": "A test needs drives, and any mixture of tables and failures.", "anchors": ["src/lintel-disktool.in:333-392"]}
{"id": "C172", "title": "lintel-disktool format: what is overwritten", "statement": "format makes file systems only on first partitions of drives of the configuration whose tables are correct, never on one that is in use or reserved.", "quantifier": "for all configurations, drives, mounts and failures of the commands run", "why_tests_cant": "A test needs drives, and any mixture of labels, mounts and failures.", "anchors": ["src/lintel-disktool.in:402-560"]}
{"id": "C173", "title": "lintel-disktool format: labels", "statement": "Whenever format writes anything, every drive has a valid label of its own; a drive with a label keeps it; if format ends well every drive that is not in use or reserved has a file system with its label. nextUnique finds a label that is not in use.", "quantifier": "for all configurations, drives, labels and failures", "why_tests_cant": "The functions that choose labels are arbitrary.", "anchors": ["src/lintel-disktool.in:402-620"]}
{"id": "C174", "title": "lintel-disktool mount: each drive where it belongs", "statement": "If mount ends well, exactly the drive with a label is mounted on the directory of the label; other directories stay as they are; no directory in use is removed; running it again does nothing.", "quantifier": "for all configurations, drives, mount tables and failures", "why_tests_cant": "The mount table and the labels are arbitrary.", "anchors": ["src/lintel-disktool.in:620-692", "src/lintel-disktool.in:829-859"]}
{"id": "C175", "title": "lintel-disktool umount: what is unmounted", "statement": "If umount ends well, the drives below the mount path that match an argument (or all) are not mounted any more, unmounted in drive order; everything else stays mounted.", "quantifier": "for all mount tables, arguments and failures", "why_tests_cant": "The mount table and the expressions are arbitrary.", "anchors": ["src/lintel-disktool.in:696-735", "src/lintel-disktool.in:829-859"]}
{"id": "C176", "title": "lintel-disktool fail: only the named drives", "statement": "fail does nothing unless every path names a mounted drive; it overwrites only these drives and only if destroy or mangle is given; it removes only these drives; it stops at the first failure; if it ends well all are done.", "quantifier": "for all mount tables, paths and failures", "why_tests_cant": "It destroys data; and the mount table and paths are arbitrary.", "anchors": ["src/lintel-disktool.in:893-971"]}
{"id": "C177", "title": "lintel-disktool: recognising a correct partition table", "statement": "From the output of sfdisk about any drive the program recognises whether the first partition has the whole drive (so that it is not partitioned again), and reads its geometry.", "quantifier": "for all geometries and partition tables", "why_tests_cant": "Geometries and tables are unbounded.", "anchors": ["src/lintel-disktool.in:973-1038"]}
{"id": "C178", "title": "mercury-plot: default table and condition", "statement": "With a default table and a default condition, every select statement is sent with its own from clause or else the default table, its own condition and the default one, and its other clauses unchanged; a plot without an order is ordered by its x column.", "quantifier": "for all select statements", "why_tests_cant": "Statements are arbitrary text.", "anchors": ["src/mercury-plot.in:857-889", "src/mercury-plot.in:394-411"]}
{"id": "C179", "title": "mercury-plot: rows become points", "statement": "The data file of a plot has one line for every row of the query without nulls, in order; the form is chosen by the columns of the query; the shares of a cdf are those of the values.", "quantifier": "for all results of queries and all orders of hashes", "why_tests_cant": "Results and the order of perl hashes are arbitrary.", "anchors": ["src/mercury-plot.in:394-503", "src/mercury-plot.in:1318-1403"]}
{"id": "C180", "title": "mercury-plot: barplot draws every row once", "statement": "barplot draws for every row of the query one bar in the place of its group and name, with its value, or dies if two rows have the same place; bars do not overlap.", "quantifier": "for all results of queries", "why_tests_cant": "Results are arbitrary.", "anchors": ["src/mercury-plot.in:504-728"]}
{"id": "C181", "title": "mercury-plot: the list of plots", "statement": "After any commands the list of plots is as the commands say and every entry is drawn once with its title and style; replot draws the same list with new data.", "quantifier": "for all lists of commands", "why_tests_cant": "Histories of commands are unbounded.", "anchors": ["src/mercury-plot.in:352-393", "src/mercury-plot.in:1304-1481"]}
{"id": "C182", "title": "mercury-plot: scripts", "statement": "A script has the effect of its commands: continued lines are joined, blocks of code are taken as they are, and parts between skipto and its marker are left out.", "quantifier": "for all scripts", "why_tests_cant": "Scripts are arbitrary text.", "anchors": ["src/mercury-plot.in:211-350"]}
{"id": "C183", "title": "mercury-plot: errors in files", "statement": "Files given on the command line are carried out up to the first command that fails, in sourced files too, and the exit status tells whether there was one.", "quantifier": "for all trees of files and all failures", "why_tests_cant": "Files source each other in arbitrary ways.", "anchors": ["src/mercury-plot.in:137-160", "src/mercury-plot.in:740-806"]}
{"id": "C184", "title": "mercury-plot: import-data", "statement": "import-data makes a table with a row for every line of the files, in order, whose column types can hold all the values; if it fails, a table that was there stays.", "quantifier": "for all files and columns, and all answers of the database", "why_tests_cant": "Files are arbitrary text.", "anchors": ["src/mercury-plot.in:1615-1709"]}
{"id": "C185", "title": "mercury-plot: database keys", "statement": "--db=key selects the DSN, user and password on the first line for the key in the home file or else in the system file; comments and other keys are skipped.", "quantifier": "for all files and keys", "why_tests_cant": "Files are arbitrary text.", "anchors": ["src/Plot/Mercury.pm:43-63", "src/mercury-plot.in:79-91"]}
{"id": "C186", "title": "mercury-plot: waiting for gnuplot", "statement": "When syncToGnuplot returns, gnuplot has executed all commands that were sent to it, whatever its speed and after waits that were given up; if gnuplot goes on, the wait ends.", "quantifier": "for all interleavings of the program, gnuplot and its shell", "why_tests_cant": "It depends on the timing of three processes.", "anchors": ["src/mercury-plot.in:1127-1194"]}
{"id": "C187", "title": "Plot::Mercury: experiments", "statement": "A created experiment has a number of its own, a row and a table; later creations leave them; it is found by its number and by what it was created with; a creation that fails leaves nothing.", "quantifier": "for all lists of creations", "why_tests_cant": "Histories are unbounded.", "anchors": ["src/Plot/Mercury.pm:117-126", "src/Plot/Mercury.pm:180-256"]}
{"id": "C188", "title": "Plot::Mercury: reconnecting", "statement": "reconnectToDB returns only with a connection made with the parameters of the first one; a working connection is left alone; a connection that is gone is made again, as often as needed.", "quantifier": "for all histories of calls and all answers of the server", "why_tests_cant": "The server may fail any number of times.", "anchors": ["src/Plot/Mercury.pm:65-115"]}
{"id": "C189", "title": "Plot::Mercury: reload_use", "statement": "Whenever reload_use returns, the version of the module that is loaded is the one in the file; a file that has not changed is not loaded again.", "quantifier": "for all histories of edits and calls", "why_tests_cant": "Edits may happen at any time.", "anchors": ["src/Plot/Mercury.pm:258-290"]}
{"id": "C190", "title": "HashTable: chain statistics and raw data", "statement": "chainLengthStats adds one sample for each entry point, the number of entries with that hash, and the samples add up to size(); the free list check passes; unsafeGetRawDataVector gives exactly the stored entries if size() is the largest it has been since the table was cleared, and stops the program otherwise.", "quantifier": "for all histories of calls and all lawful hash functions", "why_tests_cant": "Histories are unbounded.", "anchors": ["include/Lintel/HashTable.hpp:256-264", "include/Lintel/HashTable.hpp:537-556"]}
{"id": "C191", "title": "stringToDouble accepts numbers and nothing else", "statement": "A string is converted exactly when it is, after blanks, a whole number in decimal or hexadecimal notation, an infinity or a nan, and the result is the number it spells; any other string stops the program.", "quantifier": "for all strings", "why_tests_cant": "The set of numbers and of strings that are not is infinite.", "anchors": ["src/StringUtil.cpp:329-337"]}
{"id": "C192", "title": "Blanks, case and wide strings", "statement": "stringIsBlank and stringIsSpace tell whether all characters are blanks or spaces; downcaseString and upcaseString change only the case of letters, so that strings have the same form exactly when they differ in case only; widening and narrowing gives the string back.", "quantifier": "for all strings and locales", "why_tests_cant": "Strings are arbitrary bytes.", "anchors": ["src/StringUtil.cpp:348-366", "src/StringUtil.cpp:439-480"]}
{"id": "C193", "title": "deptool publish pushes only what was tested", "statement": "Whatever publish pushes has exactly the files with which the last build and test of all projects ended well; when publish ends well, every project has been pushed to both places in the version that is its head.", "quantifier": "for all projects, changes, merges, test results, refused pushes and pushes by others meanwhile", "why_tests_cant": "The interleavings of commits, pulls, tests and pushes are unbounded, and each needs servers and other people.", "anchors": ["src/deptool.in:1856-1863", "src/deptool.in:1929-2010", "src/deptool.in:2490-2533", "src/deptool.in:4987-5040", "src/deptool.in:5117-5200"]}
{"id": "C194", "title": "deptool commit asks about unknown files", "statement": "A commit asks about files that are not under version control unless exactly these were ignored in this directory before; it follows the first answer that is ignore or add, and ends.", "quantifier": "for all histories of commits, sets of files and answers", "why_tests_cant": "Histories and sets of file names are unbounded.", "anchors": ["src/deptool.in:1952-1998"]}
{"id": "C195", "title": "deptool: marks of reviewed revisions", "statement": "After any reviews, review-status finds for each revision the marks it was given, one for one and in order, with the time and the comment that was typed.", "quantifier": "for all lists of marks, comments and addresses", "why_tests_cant": "Comments are arbitrary text.", "anchors": ["src/deptool.in:2865-2867", "src/deptool.in:2913-2929", "src/deptool.in:3182-3190", "src/deptool.in:5291-5303", "src/deptool.in:5331-5352"]}
{"id": "C196", "title": "deptool: what a revision says is what git printed", "statement": "For every commit, the revision, author, time, ancestors and message read from git's output are those of the commit; a commit with one parent can be reviewed, and for a merge there is a question.", "quantifier": "for all commits", "why_tests_cant": "Commits have arbitrary messages and header fields.", "anchors": ["src/deptool.in:2656-2685", "src/deptool.in:5216-5263"]}
{"id": "C197", "title": "deptool review-status lists the revisions that were asked for", "statement": "review-status lists, in the order of the log, exactly the revisions that are no merges and meet all selectors (who, min-date, max-date, branch, unreviewed); unknown and repeated selectors are refused.", "quantifier": "for all logs and selectors", "why_tests_cant": "Logs and dates are unbounded.", "anchors": ["src/deptool.in:3127-3166", "src/deptool.in:3199-3240", "src/deptool.in:5354-5372"]}
{"id": "C198", "title": "deptool code-review goes through all files in order", "statement": "Return shows the next file of the ordering file and moves on, auto shows the rest, part of a name goes to the first file that fits, and after the last file comes the question; so no file is left out.", "quantifier": "for all ordering files and sequences of commands", "why_tests_cant": "Sequences of commands are unbounded.", "anchors": ["src/deptool.in:2801-2911", "src/deptool.in:2966-3010"]}
{"id": "C199", "title": "deptool code-review shows what the chosen revisions changed", "statement": "The directories that are compared in a code review contain, for each file that one of the chosen revisions changed, the contents before the first and after the last of these changes, and no other files; so everything that is marked as reviewed was shown.", "quantifier": "for all histories, choices of revisions and repeated reviews", "why_tests_cant": "Histories of revisions and of reviews are unbounded.", "anchors": ["src/deptool.in:2686-2760", "src/deptool.in:2931-2964", "src/deptool.in:3007-3081"]}
{"id": "C200", "title": "deptool code-review: order of the files", "statement": "The ordering file lists every changed file once; documentation and headers come before sources and tests, and the header and the source of one name are next to each other.", "quantifier": "for all sets of file names", "why_tests_cant": "File names are arbitrary text.", "anchors": ["src/deptool.in:2763-2799"]}
{"id": "C201", "title": "deptool tar-init loses no project", "statement": "Initialising projects from a tar release leaves each project that was there under its own or its old name, unpacks the newest version of each release under the name of the project, and stops before a change if something is missing.", "quantifier": "for all contents of the project directory, lists of releases and results of downloads", "why_tests_cant": "Lists of names and their order are unbounded, and the downloads need servers.", "anchors": ["src/deptool.in:5376-5514"]}
{"id": "C202", "title": "deptool test: the numbers of the tests", "statement": "The list of tests that is read from ctest -N has the names of all tests in order, so that the test that is started as number i is the i-th of the list; other output is refused.", "quantifier": "for all lists of tests and outputs", "why_tests_cant": "Names and their number are unbounded.", "anchors": ["src/deptool.in:1316-1342"]}
{"id": "C203", "title": "deptool test: the verdict on a test is that of ctest", "statement": "The sections of the log of a test are read as ctest wrote them, whatever the test printed, and a test passes or fails as ctest says.", "quantifier": "for all logs", "why_tests_cant": "What a test prints is arbitrary text.", "anchors": ["src/deptool.in:1390-1409", "src/deptool.in:1411-1452"]}
{"id": "C204", "title": "Assertions that fail in several threads", "statement": "Whichever threads fail and however they are scheduled, the hooks of each failure are called in order, each once, before and after the message; a thread goes on only if one of its own hooks throws, and then it does go on; otherwise the program ends.", "quantifier": "for all numbers of threads, schedules and lists of hooks", "why_tests_cant": "Schedules cannot be enumerated, and a test of the end of the program ends itself.", "anchors": ["src/AssertBoost.cpp:78", "src/AssertBoost.cpp:122-174"]}
{"id": "C205", "title": "deptool cdsrc, cdopt and cddebug go between parallel directories", "statement": "With the shell functions of the documentation, cdsrc, cdopt and cddebug lead to the directory of the source or build that corresponds to the current one; a build type that is given is remembered for the project until another is given.", "quantifier": "for all sequences of commands, projects, directories and types", "why_tests_cant": "Directories are found by taking names apart again; which names come apart wrongly shows only for all names and orders of commands.", "anchors": ["src/deptool.in:3240-3340", "src/deptool.in:3343-3359"]}
{"id": "C206", "title": "deptool pull and sync with monotone: at the head, or pinned", "statement": "A pull or sync that returns leaves the checkout at the only head as far as the last look could tell, or pinned: then the line for this head and revision is in the file of the pins and nothing was updated. made_changes is set if and only if there was an update. Before every merge and update the user is asked, and they are only done when there are several heads, or the head is another. A pin holds as long as the head stays. (False: 'deptool pin' never makes a pin, it dies; a pin with a shortened revision does not hold.)", "quantifier": "for all answers of monotone and of the user, changing at any time, and all files of pins", "why_tests_cant": "Other people change the database between any two commands; a test is one such history.", "anchors": ["src/deptool.in:1782-1827", "src/deptool.in:4391-4514"]}
{"id": "C207", "title": "deptool cmake: the build that the directory is for", "statement": "In a build directory, cmake is run for the source of the project, with the type of build and the place to install that belong to the tree, and with the variant of the directory. 'cmake clean' in the source tree or a build tree removes below the current directory the files with cmake's names and the directories CMakeFiles, and nothing else. (False: if the name of the optimised tree begins with that of the debugging tree, all its builds are debugging builds; '--clean' cleans nothing; clean removes Makefiles that are sources.)", "quantifier": "for all trees, projects, variants, directories, arguments and contents of the disk", "why_tests_cant": "Names of trees and directories are unbounded, and what is to stay on the disk is everything else.", "anchors": ["src/deptool.in:2005-2119", "src/deptool.in:3483-3513"]}
{"id": "C208", "title": "Double: comparing with a tolerance", "statement": "With a positive tolerance, for numbers that have an order exactly one of lt, eq and gt holds, leq and geq are the negations of gt and lt, and eq is symmetric. Two numbers other than zero are equal when their difference is less than the tolerance times the smaller of their sizes, but for the rounding of two operations; beside zero the tolerance is absolute. setEpsilonBits sets exactly that power of two, setEpsilonDigits that power of ten but for one rounding each digit. (False: the tolerance is relative to the larger value; an infinity equals itself; lt is an order to sort by.)", "quantifier": "for all doubles with infinities and NaN, all tolerances, and every correct rounding", "why_tests_cant": "Rounding near the tolerance and at the ends of the range cannot be sampled.", "anchors": ["include/Lintel/Double.hpp:36-78"]}
{"id": "C209", "title": "Clock::perThread: one clock for each thread", "statement": "If perThread is called only after perThreadInit has returned, it never fails, a thread gets the same clock in all calls, and a clock is never given to two threads, whatever thread-specific keys other code makes and uses and with threads beginning and ending. (False: without perThreadInit there is always the message; key 0 of other code is taken instead, or an unknown key is used.)", "quantifier": "for all interleavings of initialisation, calls, threads that end, and keys of other code", "why_tests_cant": "Interleavings and other users of keys cannot be enumerated.", "anchors": ["src/ClockPThread.cpp:5-38", "src/Clock.cpp:392-394"]}
{"id": "C210", "title": "Matrix keeps its numbers", "statement": "With any number of matrices of less than 2^32 elements, used within their bounds, get returns what was last set there by set or setRow, zero at first and after resize; nothing undefined happens; with the debugging checks an access outside of the bounds stops the program; and all memory is freed if nothing was resized. (False: resize frees the memory of before; a Matrix can be copied; larger matrices have room for all their elements.)", "quantifier": "for all sequences of calls, sizes and values, with and without the checks", "why_tests_cant": "Sizes, and the interplay of several matrices in memory, are unbounded.", "anchors": ["include/Lintel/Matrix.hpp:26-68", "src/Matrix.cpp:17-53"]}
{"id": "C211", "title": "SSP::Lintel::Stats: statistics in perl", "statement": "For values from -1e100 to 1e100, of which there is at least one, count, min, max, mean and stddev are those of the values: the mean is their average and stddev the root of the mean squared difference from it, in exact arithmetic; with doubles all numbers are those of the C++ class Stats to the last bit. (False: values outside of that range are seen by min and max; stddev never dies.)", "quantifier": "for all lists of values and every correct rounding", "why_tests_cant": "Lists and values are unbounded, and a negative variance comes only from particular roundings.", "anchors": ["src/perl/lib/SSP/Lintel/Stats.pm:3-30", "src/Stats.cpp:87-137"]}
{"id": "C212", "title": "The lists that statistics print can be read, and say what the statistic says", "statement": "What printRome prints of a statistic of any class - plain, histogram of each of the four kinds, sequence, quantiles, group of histograms, series in time, nested in each other - and of a StatsRW is a well-formed nested list of braces and parentheses, the same at every depth of indentation, in which each name (count, min, max, mean, ..., type, low, high, bins, binCounts, binMeans, values, quantiles, series, interval_start, read, write, all) stands before the value of that accessor, with all bins, values, rows and intervals in order and none missing.", "quantifier": "every statistic, every nesting, every depth, every way to print numbers as words", "why_tests_cant": "the text has to be read back; tests compare a few outputs literally", "anchors": ["src/Stats.cpp:Stats::printRome", "src/StatsHistogram.cpp:printRome", "src/StatsSequence.cpp:StatsSequence::printRome", "src/StatsSeriesGroup.cpp:StatsSeriesGroup::printRome", "src/StatsRW.cpp:StatsRW::printRome"]}
{"id": "C213", "title": "A StatsQuantile prints the quantiles asked for, and all of them", "statement": "With n ranges, printRome and printTextRanges print exactly the n-1 quantiles 1/n, 2/n, ... in order, none lost or repeated through the rounding of the running sum, then printRome adds the pairs of tails 90/95%, 99/99.5%, ... as long as at least one value is beyond the first of a pair, and printTextTail those with at least ten; the percentage printed next to a value is that of the quantile, the value is right up to the error the statistic was made for, lines of text hold ten quantiles headed by the percentage of the first, and printing changes no quantile. (Proved for up to 3000 ranges. False: a statistic that got more values than it was made for stops the process when printed, as does a negative number of ranges; 0 ranges print none.)", "quantifier": "every history of a statistic, every number of ranges up to 3000, every number of values up to the 10^14 the class allows", "why_tests_cant": "the loops add and divide doubles and compare with a tolerance; whether the last row appears depends on rounding for each n and each count", "anchors": ["src/StatsQuantile.cpp:StatsQuantile::printRome", "src/StatsQuantile.cpp:StatsQuantile::printTextRanges", "src/StatsQuantile.cpp:StatsQuantile::printTextTail"]}
{"id": "C214", "title": "Logged messages reach every appender whole, once and in one order", "statement": "However threads interleave, LintelLog::log and addAppender behave as if the calls were made one after the other in an order that respects each thread and the return of earlier calls: every message goes to every appender added by then exactly once, in the order they were added (to the console if there is none), and no other message comes between; each call can return. On a terminal shared by stdout and stderr the lines of the console appenders appear in that order, whenever the buffer of stdout is written, and after a warning or an error nothing logged before is still in the buffer. (False: an appender that itself logs stops all logging for ever; consoleTimeAppender prints microseconds without leading zeros, so the number after @ is the time only if they have six digits or are 0.)", "quantifier": "every schedule of every number of threads, every message and set of appenders, every moment at which the buffer is written", "why_tests_cant": "schedules and buffer sizes are not under the control of a test", "anchors": ["src/LintelLog.cpp:LintelLog::log", "src/LintelLog.cpp:LintelLog::addAppender", "src/LintelLog.cpp:LintelLog::consoleAppender", "src/LintelLog.cpp:LintelLog::consoleTimeAppender"]}
{"id": "C215", "title": "Calibrating the clock rate stands up to bad measurements", "statement": "A clock rate that calibrateClock sets is above 200 MHz, comes from at least 40 measurements taken in a row with at most 128 rounds thrown away, and lies in every interval that holds three quarters of those measurements, however wild the others (infinite ones too). If every round measures the same rate, 40 rounds are enough and that rate is the result. One measurement differs from the rate by no more than the cycles around the two readings of the time of day, one cycle, and the error of the time of day account for. Calibration stops the program only for a rate of at most 200 or after ten times 129 useless rounds. The limits from the first measurements are order statistics that outliers do not move. (False: the cycles per step of the time of day are averaged over unsorted measurements, so one outlier of ten moves them without limit; after 400 measurements it tries again - a try can go on for ever; a counter above 2^63 is measured rightly.)", "quantifier": "every list of readings of the counter and the time of day, every test of the confidence interval", "why_tests_cant": "the readings come from the hardware; a test cannot choose them", "anchors": ["src/Clock.cpp:Clock::calibrateClock", "src/Clock.cpp:Clock::initialMeasurements", "src/Clock.cpp:Clock::estimateTodTfracLatency"]}
{"id": "C216", "title": "Frequency scaling is excluded only if every processor excludes it", "statement": "The check before calibration says that there is no frequency scaling exactly when there is at least one processor and for every one of them the governor is 'performance' or the two limits of the frequency are the same and not empty; in mode AUFSO_No the clock is calibrated only then; a warning is logged exactly for possible scaling in the modes that warn, and getFrequencyScalingInfo reports what was found. A directory that cannot be read counts as possible scaling. (False: that it always answers - a directory without processors, or a file whose first line is not ended within 79 characters, stops the program.)", "quantifier": "every contents of the directory of processors and its files", "why_tests_cant": "a test sees only the machine it runs on", "anchors": ["src/Clock.cpp:doCFPFS", "src/Clock.cpp:readFileLine", "src/Clock.cpp:checkForPossibleFrequencyScaling"]}
{"id": "C217", "title": "Locks that belong to a block are given back on every way out", "statement": "Code that locks only by SimpleScopedLock or PThreadScopedLock objects (and opens blocks only by PThreadScopedUnlock) has unlocked every mutex exactly as often as it locked it when a block ends, by an exception or not, with any nesting, loops and handlers. With any number of such threads and any schedule nothing undefined happens, no two threads are inside for the same mutex, a variable used only under one mutex misses no update, and if mutexes are nested in one order some thread can always go on until all have ended. LintelLog, which locks by hand, is usable after every call. (False: the last for an appender that throws. Not promised: nesting the same mutex waits for ever, as do opposite orders.)", "quantifier": "every program of blocks, every set of threads, every schedule, every place an exception may come from", "why_tests_cant": "schedules and the places of exceptions cannot be enumerated", "anchors": ["include/Lintel/SimpleMutex.hpp:23-52", "src/SimpleMutex.cpp:15-36", "include/Lintel/PThread.hpp.in:221-291", "src/LintelLog.cpp:201-220"]}
{"id": "C218", "title": "printTabular prints a table that says what the statistic or histogram is", "statement": "What printTabular prints reads as lines of words, whatever the depth. It says the count, minimum, maximum, mean, deviation, variance, confidence and totals (0 for those an empty statistic does not have). Of a histogram it says type, range, number of bins and rescalings, and has a row for each bin: the upper end, the count, the number of values up to it, both divided by the number of values, and the width. For a uniform histogram the rows are the true numbers of values in and below each bin, and the last one says 1. StatsRW has a section for each part that has values, or only the table of all values. printHistogramRandomInput prints the number of bins and the upper end and count of each. (False: the heading calls the first column low; the parts of an empty histogram are nan; a series group ends the program; the depth is not ignored.)", "quantifier": "all statistics and histograms, all sequences of add and reset, all depths, all ways of printing numbers as words", "why_tests_cant": "the number of bins, rows and values is unbounded", "anchors": ["src/Stats.cpp:195-229", "src/StatsHistogram.cpp:283-327", "src/StatsRW.cpp:148-185", "src/StatsSeriesGroup.cpp:121-125"]}
{"id": "C219", "title": "another_new gives an object like this one, but fresh", "statement": "After any calls on a uniform or logarithmic histogram, with or without sums, or on a series, another_new() gives an object of the same class with the parameters the first one has now (number of bins, range, flags, lag) and with nothing in it: every later sequence of calls on the new object has the results that the same calls would have on the first one after reset(). The first one is not changed. This is false for a histogram that has grown to an odd number of bins, and for the classes that do not define another_new (sequences, quantiles, groups), which give a plain Stats.", "quantifier": "for all parameters, all sequences of calls before, and all sequences of calls after", "why_tests_cant": "A test compares one pair of objects after a few calls; that the new object cannot be told from the first one after reset needs all histories and all futures.", "anchors": ["StatsHistogram.cpp:330-336", "StatsHistogram.cpp:552-557", "StatsHistogram.cpp:700-706", "StatsHistogram.cpp:805-809", "StatsSeries.cpp:184-188", "Stats.cpp:235-237", "StatsHistogram.hpp:98-99"]}
{"id": "C220", "title": "deptool mtnserve --push-to: every change that the server got is tested", "statement": "The server, its hooks and the pushing process share a numbered file, a lock and a signal. However their steps interleave: when the process waits again, no signal is pending and no hook is at work, the database tested last had all updates that the server had received; databases are tested in the order in which they grew; while anything is left to do, somebody can take a step. A failed test is repeated at most four times with the same heads before the next update. The process does not die. The last is false: it dies when a hook signals after the flag was cleared and before the number is raised, when it waits for a lock that a hook has, and when a test fails before heads are printed.", "quantifier": "for all interleavings of any number of updates, hooks, tests and retries", "why_tests_cant": "The races depend on the scheduling of three processes and on signals; tests see one schedule, and the losing ones take microseconds.", "anchors": ["deptool.in:2297-2331", "deptool.in:2333-2418", "Lock.pm:72-106"]}
{"id": "C221", "title": "deptool: the top of a source tree", "statement": "All commands work on the project whose deptool.config is nearest at or above the current directory, whether this is in the source tree or at the same place in a build tree; if there is none, there is an error message after as many rounds as the path has names. The last is false if $PROJECTS ends with a slash: from a build tree the search then comes to a path ending with a slash, which the substitution does not shorten, and goes on forever.", "quantifier": "for all directories and all places of deptool.config files", "why_tests_cant": "A test has one tree and one depth; that the search ends for all paths, and never stops at a file further up than the nearest, is about all of them, and a hang is not an answer that a test can wait for.", "anchors": ["deptool.in:3515-3524", "deptool.in:3483-3513"]}
{"id": "C222", "title": "deptool review-status: the log of a monotone repository", "statement": "Each revision that `mtn log` prints is found once, in the order of the log, with all its parents, authors, dates and branches and its whole changelog (without empty lines at the start), whatever the changelogs contain. That is false for changelogs with a line of fifty or more dashes: what follows is lost, since it is put into a hash that is thrown away; and if a line like the first one of a revision follows, a revision appears that does not exist, or the program dies.", "quantifier": "for all lists of revisions with any fields and any changelogs", "why_tests_cant": "The log of a repository has thousands of changelogs written by hand; a test has the few that its author thought of, and the parser is written around one that was found in the wild.", "anchors": ["deptool.in:4687-4783"]}
{"id": "C223", "title": "deptool code-review: what monotone says about one revision", "statement": "A code review shows the revision, its parents, authors, dates, branches and its changelog as monotone has them. That is false for the first revision of a project, whose parent is printed empty, and for a revision that has three values of one kind (such as branches): then the program dies.", "quantifier": "for all revisions", "why_tests_cant": "Which revisions are refused depends on the lengths and numbers of all fields; the other parser in the same file accepts what this one does not.", "anchors": ["deptool.in:4565-4599"]}
{"id": "C224", "title": "deptool review-status: the reviews of a revision in monotone", "statement": "The reviews of a revision are those recorded as certificates: all of them, in their order, each with its author and comment, and nothing else, whatever the other certificates (such as changelogs) contain. Two limits: one review without a comment makes the program die, and the signatures are not looked at.", "quantifier": "for all lists of certificates", "why_tests_cant": "That no text in another certificate can pass as a review is about all texts.", "anchors": ["deptool.in:4671-4685"]}
{"id": "C225", "title": "lintel::hash of integers, pointers, strings and pairs", "statement": "Two different values of one integral type of up to four bytes have different hashes, and equal numbers in two such types have the same. A std::string and a C string with the same text have the same hash, in pairs too, and the value is that of the published function, the second half of a pair being the seed for the first; nothing behind the texts is read. Limits: negative numbers hash differently in types of different widths; types of eight bytes, pointers and strings collide, even short ones.", "quantifier": "for all integers of up to four bytes; all nested pairs of strings below 4 GiB", "why_tests_cant": "Collisions are rare: tests do not come across them, and cannot show there are none among 2^32 values.", "anchors": ["include/Lintel/HashFns.hpp:99-264"]}
{"id": "C226", "title": "deptool getenv: settings last", "statement": "Evaluating the output of `deptool getenv for-sh` gives the shell exactly the values deptool uses, leaves its other variables alone, and from then on deptool uses these values there and asks nothing, whatever becomes of the machine; `--unset` removes them all. The trees for debug and optimized builds never lie in one another unless the user says so, and there is always at least one make job. Not so if a value contains a quote, backslash, dollar or backquote: then the shell gets other values, or runs what is in them.", "quantifier": "for all environments and machines", "why_tests_cant": "Any variable may or may not be set, to any text, and the machine may change between two runs.", "anchors": ["deptool.in:3614-3928"]}
{"id": "C227", "title": "ConstantString: hash, comparison with C strings and printing", "statement": "Two ConstantStrings have the same hash() exactly if their texts are equal, as long as the pool lies within one aligned range of 4 GiB; comparing one with a C string by != tells whether the texts differ, and << writes the text. Limits: with a zero byte in the text, only what is before it counts for != and <<, so that a string can be neither == nor != to another; with buffers further apart hashes collide.", "quantifier": "for all histories of creations and all placements of the buffers", "why_tests_cant": "Interning, memory layout and zero bytes only meet in some histories; hash depends on where the allocator puts the buffers.", "anchors": ["include/Lintel/ConstantString.hpp:86-101", "include/Lintel/ConstantString.hpp:198-213"]}
{"id": "C228", "title": "deptool init for git: repositories never push or fetch by force", "statement": "deptool's initRepositories gives every named repository a local copy at the path of its name; new copies are read from the git server, written over ssh when named by a short name, and have neither the mirror setting (push by force) nor the forced fetch that git clone --mirror makes; copies that were there are fetched and keep their settings, whatever fails. Limits: if a command fails, or init is stopped, between the clone and the two repairs, the copy forces pushes and fetches, and no later init repairs it; two servers' repositories of one name share one copy, the second being ignored silently.", "quantifier": "for all lists of repositories, all states of the directory and all outcomes of the git commands", "why_tests_cant": "A test would have to make a particular git command fail halfway; the dangerous setting only shows when somebody pushes.", "anchors": ["src/deptool.in:4903-4939", "src/deptool.in:4107-4120"]}
{"id": "C229", "title": "deptool init: the user's git configuration", "statement": "initConfig asks for six settings until each is given a value (with @ for the address), a blank answer taking the value that was configured before or a built-in one; when it ends each has exactly one, non-empty value, and a mark is written last, so that a later run finds it and does nothing and an interrupted one is asked again; no other setting changes, whatever happens. Limits: it dies, asking nothing, on a configuration with a key that has characters other than letters, digits, _ and . (as git allows) or with values of several lines; at the end of the input without default it asks forever; an own core.excludesfile is not offered as default, nor is the value 0.", "quantifier": "for all configurations, all inputs and all outcomes of the git commands", "why_tests_cant": "It depends on what users have in their ~/.gitconfig and on where they interrupt.", "anchors": ["src/deptool.in:4840-4901", "src/deptool.in:4941-4953"]}
{"id": "C230", "title": "StatsQuantile: both searches for an index find the same value", "statement": "getQuantile can find the value with a given index by binary search in the sorted buffers, as it does, or by merging them, as it did before. After any history of constructing, adding, merging, resetting and asking that ends with getQuantile on a sketch with values, both give for each index below the count the same value: the only one at that index when the stored values are sorted and each counts as often as its weight. For larger indices merging gives NaN. Limits: the merge does not sort, so in a sketch that was not asked since the last value was added it can give a wrong value; on a new sketch that allocates lazily it reads before the start of an array.", "quantifier": "for all histories of operations on sketches within the limits of C29 and all indices", "why_tests_cant": "The regression test compares the searches on a few random samples.", "anchors": ["src/StatsQuantile.cpp:378-443", "src/StatsQuantile.cpp:464-577", "include/Lintel/StatsQuantile.hpp:148-149"]}
{"id": "C231", "title": "StatsQuantile: the cache of sizes changes nothing", "statement": "The constructors of all sketches share a cache from error and bound to the sizes found. Whatever sketches a program constructed before, successfully or not, each new one gets the number and size of buffers that it would get as the first one, or is refused as it would be then; the cache has never more than 1001 entries; and a program that uses at most 1001 different pairs of error and bound (bounds below 100 counting as 100) searches only once for each. Limit: a negative error passes the check of the arguments, and its hash converts a negative double to unsigned, which is undefined behaviour.", "quantifier": "for all sequences of constructor calls with any errors and bounds up to 10^13, and every rounding to nearest", "why_tests_cant": "It depends on all sketches constructed before in the process.", "anchors": ["src/StatsQuantile.cpp:26-51", "src/StatsQuantile.cpp:73-128"]}
{"id": "C232", "title": "deptool checkout selects the branch that was meant", "statement": "An argument to deptool checkout can mean the branches in whose name it occurs after a slash; if some of those are branches of git, only those. It selects a branch exactly when that is one it can mean and its name begins the names of all others it can mean; else it is refused as unknown or ambiguous. An option after a semicolon, as dependencies have, does not change the selection. Each branch of each local git repository is listed, its master also under the name of the repository alone. Limits: the dots of an argument and of the shortest name match any character, so a branch can be selected although its name does not begin the other's; a repository without master and with several branches cannot be checked out by its name; and a local git repository whose HEAD is detached makes every checkout die, also those of other projects.", "quantifier": "for all sets of monotone branches and git repositories with any branches, and all arguments", "why_tests_cant": "What an argument selects depends on all the repositories that happen to be on the machine; tests use few with unrelated names.", "anchors": ["src/deptool.in:893-991"]}
{"id": "C233", "title": "deptool checkout checks out what is needed and touches nothing else", "statement": "Whatever happens, deptool checkout changes no directory that was there. When it ends well, every argument and every dependency, direct or not, named in the deptool.config of what is needed means a branch, whose directory is there with the right version control; and each new directory is a complete checkout of a branch that was needed: cloned from the local repository, with origin's urls for fetching and pushing and following origin. It ends even when projects depend on each other, and it does not die when everything needed is known, nothing is in the way and all commands succeed. Limits: the directory is only the last part of the repository's path, so of two repositories with the same last part the second is skipped silently; a directory with a clone of another branch is taken for the one asked for; and a checkout that was interrupted after the clone is taken as complete by the next run, which leaves it without origin.", "quantifier": "for all sets of branches, dependencies, contents of the projects directory, arguments, and any command failing at any point", "why_tests_cant": "Depends on the graph of dependencies and on where an earlier run was interrupted.", "anchors": ["src/deptool.in:848-891", "src/deptool.in:993-1059"]}
{"id": "C234", "title": "Mersenne Twister: different seeds give different sequences, without a lead-in", "statement": "Generators seeded with different numbers differ: any 624 consecutive results of one are not those at the same place of the other. The same holds for two arrays of the same number of seeds, up to 622. Every sequence is purely periodic: there is a period after which all results repeat from the very first one, so no results occur only once at the start. A seed other than 0 given to the constructor is used as it is. Limits: arrays of different lengths can give the same sequence (one seed a, and the two seeds a, a-1); for each array of 624 seeds there is another that gives the same sequence; and with seed 0, which means a seed from the clock and process numbers, two processes with different numbers that start at different times can get the same sequence.", "quantifier": "for all pairs of seeds and arrays of seeds, and all places in the sequences", "why_tests_cant": "There are 2^63 pairs of seeds and far more arrays, and sequences that meet late look different at first.", "anchors": ["src/MersenneTwisterRandom.cpp:78-97", "src/MersenneTwisterRandom.cpp:105-167", "src/MersenneTwisterRandom.cpp:192-213", "include/Lintel/MersenneTwisterRandom.hpp:40-52"]}
{"id": "C235", "title": "Marsaglia generators: what results give away and when they repeat", "statement": "For MarsagliaRNGMicro, two results in a row determine all others, later and earlier: two generators that agree in two consecutive results agree all along. Its results repeat from the very first one on, after at most 2^64 of them (not 2^128-1, as for the generator it is taken from). A generator that gives two zeros in a row gives only zeros. For the multiply-with-carry generators a step from a state as documented (carry below A) loses nothing: different such states at the same place of the array have different successors. That no two sequences run together is false: a seeded word of 2^32-1 makes the carry A, and such a state has the same successor as another one.", "quantifier": "for all states of the generators, all places in the sequences, all sizes of the array that are powers of two and all multipliers below 2^32-1", "why_tests_cant": "Periods near 2^64 and pairs of states of thousands of bits cannot be run through.", "anchors": ["include/Lintel/MarsagliaRandom.hpp:35-46", "include/Lintel/MarsagliaRandom.hpp:53-62", "include/Lintel/MarsagliaRandom.hpp:109-125"]}
{"id": "C236", "title": "Histograms: the access functions tell what was counted", "statement": "Of every histogram, whatever was added to it and however it scaled or grew: h[i] is the number of values from binlow(i) to below binhigh(i) (values beyond the range in the end bins), and value(i) of a histogram that sums up is the sum of the data added there. The bins lie side by side from low() to high(): binhigh(i) is binlow(i+1), binWidth(i) is their distance, and bincenter(i) is in the middle of a uniform bin. An index that is not the number of a bin is refused. binWidth() is binWidth(0). numGrows() says how often the histogram grew.", "quantifier": "for all numbers of bins, ranges, kinds of histograms and sequences of additions and resets, and all indexes", "why_tests_cant": "The state of a histogram depends on the whole sequence of values; reading one place behind an array usually goes unnoticed.", "anchors": ["include/Lintel/StatsHistogram.hpp:73-93", "include/Lintel/StatsHistogram.hpp:136-151", "include/Lintel/StatsHistogram.hpp:193-207", "src/StatsHistogram.cpp:84-88", "src/StatsHistogram.cpp:396-400", "src/StatsHistogram.cpp:643-647"]}
{"id": "C237", "title": "deptool pull: what is pulled and merged", "statement": "`deptool pull` pulls exactly the projects that are needed, each once and dependencies first; a project is pulled only after it was found to have neither unknown files nor uncommitted changes (unless --unsafe), and nothing is pulled at all if some project has changes. It dies only because of changes or of a command that fails, and then the other projects are as they were or completely pulled. In a git project the branch of the same name at the origin and then in the local cache are merged into the current branch, each if there is one, and no other branch.", "quantifier": "for all graphs of dependencies, also with cycles, all states of the projects, all outcomes of the merges, and all sets of branches", "why_tests_cant": "The order of checks and pulls depends on the graph; git prints other lines for detached heads, working trees and references.", "anchors": ["src/deptool.in:1847-1886", "src/deptool.in:3387-3426", "src/deptool.in:5052-5085", "src/deptool.in:5132-5157"]}
{"id": "C238", "title": "MarsagliaRNGMicro: after how many results it repeats", "statement": "The small generator, a xorshift with four words of state, gives different results for long: from every state but zero the results repeat after exactly the same, known number of calls (2^128-1 for xorshift128) and not before, and two positions give the same further results exactly if they differ by a multiple of that number.", "quantifier": "for all 2^128 states and all positions", "why_tests_cant": "The period is far beyond what can be run; a short cycle shows only from particular states.", "anchors": ["include/Lintel/MarsagliaRandom.hpp:35-46"]}
{"id": "C239", "title": "MarsagliaRNG: the constants have the property they were chosen for", "statement": "The multipliers of the Marsaglia generators are such that a*b^r+1, with b = 2^32-1 and r the number of words, is a prime of which b is a primitive root, which gives the documented recurrence the documented period a*b^r; for each of the ten sizes offered.", "quantifier": "for all the sizes offered; the statement is about the order of b modulo the prime, that is over all exponents", "why_tests_cant": "Neither the primality of numbers of up to 131088 bits nor a period of that length can be observed by running the generator.", "anchors": ["include/Lintel/MarsagliaRandom.hpp:60-90", "include/Lintel/MarsagliaRandom.hpp:135-185"]}
{"id": "C240", "title": "deptool: the output of a command is read completely", "statement": "The helper that runs a command and returns its output returns exactly the lines the command wrote to its standard output, whatever the order in which the command and the helper make their steps and however the two outputs are interleaved; it ends when the command has ended; the error output is given to the check before the status of the command is looked at, and a command that fails gives no lines.", "quantifier": "for all commands (sequences of writes to the two outputs), all pipe sizes and all schedules of command and helper", "why_tests_cant": "The interleaving of two processes and the moment at which a pipe is full are not under the control of a test; small outputs always work.", "anchors": ["src/deptool.in:4139-4163", "src/deptool.in:4536-4560"]}
{"id": "C241", "title": "deptool: the name of the current directory leads back to it", "statement": "The name deptool gives the current directory leads to it from everywhere, and a directory whose name was asked for is found again by that name after any further changes of directory; a directory first entered under a name with symbolic links keeps that name for the whole run, also when entered later by another one; with the variable PWD as the shell sets it, the program works where it was started.", "quantifier": "for all file systems with links, all starts and all sequences of changes of directory", "why_tests_cant": "Depends on symbolic links and on the order in which directories were entered; a test has one layout and one order.", "anchors": ["src/deptool.in:4122-4137", "src/deptool.in:439-441"]}
{"id": "C242", "title": "deptool: the remotes of a repository are carried over", "statement": "What git prints about the remotes of a repository is read back: every remote with the address to fetch from and the address to push to; a checkout made from the local copy of a repository fetches from and pushes to the same addresses as that copy; the two functions that look for the address of origin agree; without origin both give up, and a table that is returned leaves no line out.", "quantifier": "for all lists of remotes with any names and addresses, and for the soundness part all texts", "why_tests_cant": "The addresses are free text and their number is not limited; the remote that loses an address works until somebody misses the push.", "anchors": ["src/deptool.in:5087-5115", "src/deptool.in:1061-1070", "src/deptool.in:1048-1056"]}
{"id": "C243", "title": "mercury-plot axplusb: the best cut is found", "statement": "axplusb cuts the points of a plot into two parts and fits a line to each: the cut it reports is the best of all cuts (the sum of the deviations is smallest, the first of equals), with the lines of its parts; if lines can be fitted a cut is reported; it dies only if a fit fails.", "quantifier": "for all lists of points and all fitting functions", "why_tests_cant": "The best cut is a statement over all cuts of all data; the usual data have small deviations and many points.", "anchors": ["src/mercury-plot.in:1483-1591"]}
{"id": "C244", "title": "mercury-plot: psplot and pngplot", "statement": "psplot draws the current plot once into the file asked for and leaves gnuplot with its usual terminal; wrong modes and names are refused with nothing sent; pngplot reads its options, filename and size from its words; it says that it worked exactly if all conversions did and the pictures have the size asked for, leaves then the picture (and the postscript file if asked for) and no other file, and makes a script stop otherwise.", "quantifier": "for all arguments, all states of gnuplot and all outcomes of the commands that are run", "why_tests_cant": "Failing conversions and truncated pictures do not occur in tests; a wrong pattern accepts what nobody types.", "anchors": ["src/mercury-plot.in:1195-1302", "src/mercury-plot.in:280-290"]}
{"id": "C245", "title": "freopen64 replaces the file of a stream", "statement": "freopen64 returns the stream exactly if the file can be opened, and then its descriptor is the file asked for, standing at its beginning, with every other descriptor as it was; what waited in the stream goes to the file it had, and a file opened for writing is empty; a call that fails changes nothing; no descriptor is used up; the stream can be used as the mode says.", "quantifier": "for all tables of descriptors, files, streams and sequences of calls, and all outcomes of open, fdopen, the writing in fflush and dup2", "why_tests_cant": "Descriptors run out only after many calls; failures of the system do not occur in tests.", "anchors": ["src/stdio_64.cpp:36-77"]}
{"id": "C246", "title": "deptool test: the status of one test", "statement": "The name and the status of a test are read from what ctest wrote about it, in the formats of ctest 2.4, 2.6 and 2.8, exactly if the file has one of these forms and is about the test asked for; a failing test is reported with its name and status; the texts returned can be printed one below the other.", "quantifier": "for all files and all numbers of tests", "why_tests_cant": "The tests of the project pass, so the lines of failing tests are never read; a pattern that rejects them shows only then.", "anchors": ["src/deptool.in:1344-1387"]}
{"id": "C247", "title": "deptool commit: unknown files and uncommitted changes of a git directory", "statement": "The files deptool asks about before a commit are exactly those git does not know, in git's order and whatever characters their names have; there is something to commit exactly if git lists a change.", "quantifier": "for all lists of changed, renamed and unknown files with arbitrary names", "why_tests_cant": "Names with question marks, blanks and newlines, and renamed files, do not occur in tests.", "anchors": ["src/deptool.in:4960-4985"]}
{"id": "C248", "title": "deptool.config: what readConfig accepts", "statement": "A project's deptool.config is accepted exactly if its options have the documented forms: parallel_test 0 or 1, parallel_test_path a sub, sequential_tests a list of regular expressions, dependencies a list of 'project' or 'project;sub-build-type'. Keys that are not documented only cause a warning; the dependencies are the strings listed, in their order.", "quantifier": "for all hashes of options, with arbitrary values of every kind", "why_tests_cant": "Malformed configurations do not occur in tests: a sub-build-type with other characters, references among the dependencies, newlines.", "anchors": ["src/deptool.in:3978-4090", "src/deptool.in:1118-1127"]}
{"id": "C249", "title": "mercury-plot barplot: the styles of stacked bars", "statement": "With --color a list of p# and g#.## separated by commas, the series of a stacked bar plot get the gnuplot styles listed, in order and again from the first after the last; the names 6-grays and 4-grays stand for alternating patterns and grays, color for no style. Any other text is refused.", "quantifier": "for all options and any number of minor values", "why_tests_cant": "Lists with empty entries, blanks or many more series than styles do not occur in tests.", "anchors": ["src/mercury-plot.in:504-533", "src/mercury-plot.in:554-560", "src/mercury-plot.in:674-680"]}
{"id": "C250", "title": "lintel-config: features and paths", "statement": "lintel-config --has-feature f exits with 0 exactly if f is one of the features Lintel was built with, and these are exactly the words --features prints; --cflags, --libs and --datadir print the paths of the installation; anything else is refused with a failing status; --help succeeds.", "quantifier": "for all prefixes, versions, lists of features and arguments", "why_tests_cant": "An installation has one list of features and one prefix; tests run with those only.", "anchors": ["src/lintel-config.in:9-76", "src/CMakeLists.txt:66-147"]}
{"id": "C251", "title": "lintel-disktool list: what is reported", "statement": "list sorts every drive into used, unused and reserved, exactly one of them, in drive order; it reports exactly the known serial numbers that no drive has as not present, and exactly the drives whose serial numbers are not known as not listed; asked about a drive it prints its serial number.", "quantifier": "for all configurations, sets of devices and arguments", "why_tests_cant": "The devices of a machine are fixed; mixtures of missing, unknown and reserved drives do not occur in tests.", "anchors": ["src/lintel-disktool.in:309-343", "src/lintel-disktool.in:232-307"]}
{"id": "C252", "title": "mercury-plot select: the output can be read back", "statement": "The formats csv and html of select contain every value of the result: a program that reads them gets the names of the columns and all rows, in order, unchanged; the table of the default format has all rows once and in order, however many were read in advance.", "quantifier": "for all results: any number of columns and rows, any values", "why_tests_cant": "Tests compare a few outputs; values with commas, newlines, angle brackets or NULL, and results of more than 1000 rows, do not occur.", "anchors": ["src/mercury-plot.in:979-1026", "src/mercury-plot.in:1028-1049"]}
{"id": "C253", "title": "deptool with monotone: what is exchanged with the server", "statement": "Pull, push and sync use the database and the branch that are in force in the options of the working directory, exchange the branches of the family of this branch (for a branch of three or more parts, all that have the same parts but the last) and show the heads of the branch; a server reached by ssh gets the name of the database file. They stop if the operation is unknown or an option is missing. The log commands fit the version of monotone.", "quantifier": "for all operations, servers, options files and versions", "why_tests_cant": "No test runs monotone; which lines of the options count, which branches the pattern covers and which version gets which command is decided by patterns and comparisons.", "anchors": ["src/deptool.in:2153-2176", "src/deptool.in:4618-4632", "src/deptool.in:4537-4561", "src/deptool.in:4700-4715"]}
{"id": "C254", "title": "batch-parallel: exactly the files that need work", "statement": "The list of things to build has exactly the sources below the directories given whose result is missing or out of date, in the order of their names, each once; the names are absolute and mean the same files as the names given, whatever the working directory is later.", "quantifier": "for all directories, file systems, modules and working directories", "why_tests_cant": "Tests run over one small directory; overlapping directories, files given by name and files right below the root do not occur.", "anchors": ["src/BatchParallel/common.pm:116-134", "src/BatchParallel/common.pm:140-198"]}
{"id": "C255", "title": "batch-parallel tar: archives are whole and up to date", "statement": "An archive that exists always has all files of its group, each as it was at some time during the run that made it, whatever fails and however the sources change meanwhile; a failed run leaves the old archive and is tried again; after a run during which nothing changed the archive is up to date, and an archive that batch-parallel leaves alone is up to date.", "quantifier": "for all histories of changes to the sources, runs and failures", "why_tests_cant": "Tests make an archive once; failures in the middle and changes during or right after a run do not occur.", "anchors": ["src/BatchParallel/tar.pm:268-297", "src/BatchParallel/tar.pm:311-315", "src/BatchParallel/common.pm:92-107"]}
{"id": "C256", "title": "deptool with monotone: the reviews of a revision", "statement": "The reviews deptool shows are the certificates named review, in the order monotone lists them, each with who signed it and what was said; other certificates do not count, whatever their values are.", "quantifier": "for all lists of certificates", "why_tests_cant": "No test runs monotone; values of several lines, empty values and values that look like the lines of another certificate do not occur.", "anchors": ["src/deptool.in:4671-4685"]}
{"id": "C257", "title": "mercury-plot select: the options do not change the query", "statement": "select takes the options for the format and the file that stand before the query, the last of each counting, and gives the database the query as it was written, with its spaces and with anything in it that looks like an option; other options are refused.", "quantifier": "for all options, queries and numbers of spaces at the end", "why_tests_cant": "Tests have a few queries; several spaces, options given twice and texts in the query that look like options do not occur.", "anchors": ["src/mercury-plot.in:910-936"]}
{"id": "C258", "title": "batch-parallel: only old working directories are cleaned away", "statement": "Before a run, the working directories in the default place whose list of jobs and logs have not changed for more than a week are removed; anything with another name, and any with a list of jobs or a log that is a week old or newer, stays as it is. With --noexec nothing is removed.", "quantifier": "for all directories, files in them, names and times", "why_tests_cant": "Tests cannot wait a week, and the files removed by mistake are those of other runs.", "anchors": ["src/batch-parallel.in:277-305", "src/batch-parallel.in:307-320"]}
{"id": "C259", "title": "deptool: a missing dependency is checked out, or the walk ends", "statement": "If a dependency is missing, deptool checks it out; only if no branch is known for it does it make one, under the name that the user gives or, if they give none, under the host of the first branch that has one, and then checks it out once more. It goes on exactly if the dependency is there then.", "quantifier": "for all behaviours of checkout and init, lists of branches, answers and states", "why_tests_cant": "Tests have one database; the other failures of a checkout, a branch that cannot be made and a checkout that leaves no directory do not occur.", "anchors": ["src/deptool.in:3428-3450", "src/deptool.in:3452-3479"]}
{"id": "C260", "title": "fix-install: only the blanks in the names of manual pages go", "statement": "The release script takes the blanks out of the names in the NAME lines of the manual pages, which the tools for manual pages do not accept, and leaves the descriptions and all other lines as they are.", "quantifier": "for all pages and lines", "why_tests_cant": "The script has no tests; it changes files in place, and a line that it does not understand is not reported.", "anchors": ["dist/fix-install.sh:18-20"]}
{"id": "C261", "title": "batch-parallel: what is submitted to the batch systems", "statement": "With a batch system, batch-parallel submits one array of tasks, one for each group, with the logs in the working directory, and the job width is the maximum number of tasks that run at any one time; queue and needs of the jobs go to LSF as they were given. Nothing is submitted with --noexec or without a batch system.", "quantifier": "for all numbers, names, directories, queues and needs", "why_tests_cant": "Tests have no batch system, and the command is one text that a shell takes apart.", "anchors": ["src/batch-parallel.in:267-275", "src/batch-parallel.in:382-398", "src/batch-parallel.in:400-428"]}
{"id": "C262", "title": "check-changelogs: a release needs changelogs for its version", "statement": "The check before a release passes exactly if, for both projects, the files are there, the changelog begins with a line for the version of the release and the spec has exactly one line for it.", "quantifier": "for all versions of digits and points and all files", "why_tests_cant": "The script runs once for each release, with files that are nearly always right.", "anchors": ["dist/check-changelogs.sh:1-16"]}
{"id": "C263", "title": "Installed programs find the perl modules installed with them", "statement": "Each installed perl program adds the two directories for modules under its prefix before the other places, so that modules installed with it take precedence; nothing that was found before is lost, no place is added twice, and doing it again changes nothing.", "quantifier": "for all prefixes, places and modules", "why_tests_cant": "Tests run with one prefix and an environment in which the directories are not places of perl already.", "anchors": ["cmake-modules/LintelCMakeUtil.cmake:43-59"]}
{"id": "C264", "title": "The cmake macros for headers and libraries", "statement": "An optional header or library is used exactly if it is there and the user did not turn it off with WITH_X; a required one is used, or cmake ends. Of each, the first is taken: from the installation, from the places given, from the system.", "quantifier": "for all places, files, names of libraries and options", "why_tests_cant": "Tests run on machines where everything is there, in the places of the system, with new build directories.", "anchors": ["cmake-modules/LintelFind.cmake:6-66", "cmake-modules/LintelFind.cmake:85-162", "cmake-modules/LintelFind.cmake:169-252"]}
{"id": "C265", "title": "The cmake macros for programs and perl modules", "statement": "An optional program or perl module is used exactly if it is there and the user did not turn it off with WITH_X; a required one is there, or cmake ends. The program taken is there: the one known before if it still is, otherwise the first of where we build, the places given, the installation and the system.", "quantifier": "for all places, programs known before, and options", "why_tests_cant": "Tests run where the programs are there, and never remove them between two runs of cmake in one build directory.", "anchors": ["cmake-modules/LintelFind.cmake:256-317", "cmake-modules/LintelFind.cmake:417-470"]}
{"id": "C266", "title": "The cmake macro for the libraries of boost", "statement": "If cmake goes on with a library of boost, header and library come from the boost that FindBoost found, or, where it says /usr/lib, from /usr/lib64 or /usr/lib/x86_64-linux-gnu if boost is there; a library that is optional and not there, or turned off, is left out.", "quantifier": "for all places, answers of FindBoost, names of libraries and options", "why_tests_cant": "A machine has one boost in one place; two boosts, or wrong answers of FindBoost, are not in the tests.", "anchors": ["cmake-modules/LintelFind.cmake:347-408"]}
{"id": "C267", "title": "The cmake macros for latex and manual pages", "statement": "Latex is used exactly if its program is found, checks itself and was not turned off; a document has what it requires exactly if latex is used and each file is found. A manual page is made from the input in the source or, if there is none, in the build; its name and type are those given, or else guessed from the section.", "quantifier": "for all places of programs, files, sections and arguments", "why_tests_cant": "Tests see one machine, on which latex and pod2man are either both there or both not, and only the arguments in this project.", "anchors": ["cmake-modules/LintelDocs.cmake:224-239", "cmake-modules/LintelDocs.cmake:271-288", "cmake-modules/LintelDocs.cmake:317-363"]}
{"id": "C268", "title": "The paths in the documentation", "statement": "In the documentation made by doxygen, paths of the source and the build directory become paths of the installation, and nothing else changes.", "quantifier": "for all texts and directories", "why_tests_cant": "Tests do not look at the documentation, and its text depends on where the build is.", "anchors": ["cmake-modules/LintelDocs.cmake:135-151", "cmake-modules/LintelDocs.cmake:195-216"]}
{"id": "C269", "title": "The file Release.info of a release", "statement": "In a repository the release script writes Release.info and ChangeLog as git says, and a file that already said so keeps its time; elsewhere both files must be there and stay. The old deptool reads from Release.info the date that the script wrote, and leaves a project alone exactly if this is the date of the tar file.", "quantifier": "for all states of the directory and answers of git", "why_tests_cant": "Releases are made rarely and by hand; no test unpacks one over another.", "anchors": ["dist/make-release-changelog.sh:1-23", "src/deptool-old:770-801"]}
