{"id": "C01", "title": "Cache size accounting and capacity bound", "statement": "After any sequence of Set, TryGet, Remove and Clear on a FifoCache or LruCache, GetSize() equals the sum of the size-mapper values of exactly the entries that can be retrieved, it never exceeds the capacity, and the internal \"queue is not empty\" check in eviction never fires.", "quantifier": "every capacity, size mapper, key/value type and every finite sequence of cache operations", "why_tests_cant": "The bound is about arbitrarily long histories and arbitrary size mappers (including entries bigger than the capacity or of size 0); a test only samples some histories.", "anchors": ["stingraykit/collection/QueueCache.h: QueueCache::Set, Remove, Clear, EvictExpired, GetSize"]}
{"id": "C02", "title": "Cache read returns the latest write", "statement": "In a FifoCache or LruCache, TryGet(k) succeeds with v exactly when v was the value of the most recent Set(k, .) and since then k has been neither removed, cleared nor reported as evicted.", "quantifier": "every finite sequence of operations and every key", "why_tests_cant": "Depends on the whole history of writes, restamps, removals and evictions.", "anchors": ["stingraykit/collection/QueueCache.h: QueueCache::Set, TryGet, Remove, Clear, EvictExpired"]}
{"id": "C03", "title": "FIFO cache evicts in order of last Set", "statement": "In a FifoCache, the entries evicted by a Set are exactly a prefix of the retrievable entries ordered by the time of their last Set; TryGet never changes the order.", "quantifier": "every finite sequence of operations", "why_tests_cant": "Eviction order is a property of the whole history.", "anchors": ["stingraykit/collection/QueueCache.h: QueueCache::EvictExpired, FifoCache"]}
{"id": "C04", "title": "LRU cache evicts the least recently used", "statement": "In an LruCache, the entries evicted by a Set are exactly a prefix of the retrievable entries ordered by the time of their last use (Set or successful TryGet).", "quantifier": "every finite sequence of operations", "why_tests_cant": "Eviction order is a property of the whole history.", "anchors": ["stingraykit/collection/QueueCache.h: QueueCache::TryGet (restamping), EvictExpired, LruCache"]}
{"id": "C05", "title": "Evictions are minimal and reported exactly once", "statement": "A Set reports through OnEvicted exactly the entries that stop being retrievable because of it, each once and with its stored value, and it stops evicting as soon as the remaining entries fit in the capacity; no other operation reports evictions.", "quantifier": "every reachable cache state and every Set", "why_tests_cant": "Needs to hold in every state of the cache including oversize entries.", "anchors": ["stingraykit/collection/QueueCache.h: QueueCache::EvictExpired, OnEvicted"]}
{"id": "C06", "title": "TwoQueueCache keeps its parts disjoint and loses nothing silently", "statement": "In a TwoQueueCache each key is retrievable with the value of its latest Set; an entry disappears only by Remove, Clear or an OnEvicted report carrying its value; at no point is a key held twice.", "quantifier": "every finite sequence of Set, TryGet, Remove and Clear and every choice of capacities", "why_tests_cant": "Entries move between three internal caches depending on history and sizes.", "anchors": ["stingraykit/collection/TwoQueueCache.h: TwoQueueCache::Set, TryGet, Remove, Clear"]}
{"id": "C07", "title": "BithreadCircularBuffer is a bounded FIFO byte queue", "statement": "Bytes written into the Write() window and pushed come out of the Read() window in the same order, none lost, duplicated or altered, across any number of wrap-arounds; data size plus free size is always the storage size, the windows never overlap, and the read window is non-empty whenever data is stored.", "quantifier": "every storage size and every sequence of push (within the write window), pop (within the read window) and clear", "why_tests_cant": "Wrap-around behaviour depends on arbitrary offset histories.", "anchors": ["stingraykit/io/BithreadCircularBuffer.cpp: Write, Read, Push, Pop, Clear, GetDataSize, GetFreeSize"]}
{"id": "C08", "title": "CircularBuffer push/pop is a bounded FIFO that discards the oldest bytes on overflow", "statement": "For MemoryCircularBuffer, Push either stores all bytes after the existing ones, or fails with BufferIsFullException without change, or with DiscardOnOverflow leaves exactly the newest storage-size bytes; reading and releasing yields bytes in push order.", "quantifier": "every storage size, every overflow mode and every sequence of pushes, reads and releases", "why_tests_cant": "Offset and wrap-flag arithmetic over arbitrary histories.", "anchors": ["stingraykit/io/CircularBufferBase.h: Push, CheckDataSize, DoPush, Pop, ReleaseData, GetSize, GetAllData"]}
{"id": "C09", "title": "CircularBuffer Clear empties the buffer", "statement": "After Clear() on a circular buffer without outstanding reads, the data size is zero and the whole storage is free.", "quantifier": "every reachable state of the buffer", "why_tests_cant": "Whether the flag and the offsets are consistent depends on the wrap state at the time of the call.", "anchors": ["stingraykit/io/CircularBufferBase.h: Clear, GetSize"]}
{"id": "C10", "title": "DataBuffer delivers the stream losslessly and signals its end last", "statement": "Data accepted by DataBuffer::Process is delivered by Read in order, without loss or duplication and in multiples of the output packet size (for a consumer taking whole packets); Process refuses or waits only when there is no room for a packet or the required free space; end-of-data and exceptions surface only when less than an output packet is stored, and if the producer signals the end after its last Process returned, nothing is delivered after the end-of-data signal; an end-of-data mark and an exception never coexist.", "quantifier": "every interleaving of Process (window, copy, push), Read (offer, consume), EndOfData, SetException and Clear steps, every packet size, storage size, overflow mode and consumer behaviour", "why_tests_cant": "Producer and consumer interleave arbitrarily and consumers may accept any part of the data.", "anchors": ["stingraykit/io/BufferedDataConsumer.cpp: Process", "stingraykit/io/BufferedDataSource.cpp: Read", "stingraykit/io/SharedCircularBuffer.h", "stingraykit/io/DataBuffer.h"]}
{"id": "C11", "title": "PacketBuffer delivers packets whole and in order", "statement": "Every packet accepted by a PacketBuffer is delivered to the reader exactly once, byte-for-byte intact, contiguous and in the order of acceptance; padding bytes are never delivered.", "quantifier": "every storage size and every interleaving of Process and Read with arbitrary packet sizes", "why_tests_cant": "Padding at the storage end depends on the history of packet sizes.", "anchors": ["stingraykit/io/PacketBuffer.h: Process, Read"]}
{"id": "C12", "title": "PacketBuffer eventually accepts any packet not larger than its storage", "statement": "Whenever the buffer is empty, a packet whose size does not exceed the storage size is accepted.", "quantifier": "every reachable empty state and packet size up to the storage size", "why_tests_cant": "An empty buffer may have its offsets anywhere in the storage.", "anchors": ["stingraykit/io/PacketBuffer.h: Process"]}
{"id": "C13", "title": "PagedBuffer is a byte log with a read cursor", "statement": "Sequences of Push, Read, Pop and Seek on a PagedBuffer behave as on a byte log: reads return the pushed bytes from the cursor on, Pop drops exactly the given number of oldest bytes, Seek moves the cursor, and no byte is lost or reordered across page boundaries.", "quantifier": "every page size and every sequence of operations with arbitrary sizes", "why_tests_cant": "Page, head and tail offset arithmetic over arbitrary histories.", "anchors": ["stingraykit/io/PagedBuffer.cpp: Push, Read, Pop, Seek, ReadFromPage, WriteToPage"]}
{"id": "C14", "title": "PagedBuffer never delivers a byte twice", "statement": "Bytes that a consumer accepted in a Read are not delivered again by a later Read unless Seek is called.", "quantifier": "every interleaving of Read with Pop from another thread", "why_tests_cant": "The read happens outside the lock, so a Pop can interleave at any point.", "anchors": ["stingraykit/io/PagedBuffer.cpp: Read, Pop"]}
{"id": "C15", "title": "DataAligner outputs only aligned blocks and preserves the stream", "statement": "A DataAligner hands its consumer blocks whose sizes are multiples of the alignment, and the concatenation of those blocks is the prefix of the input it has claimed as processed, apart from a buffered remainder shorter than the alignment.", "quantifier": "every chunking of the input, every alignment, every consumer acceptance pattern and every cancellation point", "why_tests_cant": "Chunk boundaries and consumer behaviour are arbitrary.", "anchors": ["stingraykit/io/DataAligner.h: Process, EndOfData"]}
{"id": "C16", "title": "Take and skip adaptors cut the stream exactly", "statement": "Taking n bytes from a source delivers exactly the first n bytes of it (all of it, with end of data, if it has fewer) and claims no more from the source unless asked to discard the rest; skipping n bytes delivers exactly what follows the first n bytes.", "quantifier": "every n, stream, chunking and consumer acceptance pattern, every cancellation point and source failure", "why_tests_cant": "Quantifies over arbitrary chunkings and partial acceptance.", "anchors": ["stingraykit/io/DataUtils.h: TakingConsumer, SkippingConsumer, DataTaker, DataSkipper"]}
{"id": "C17", "title": "ordered_set / ordered_map iterate in insertion order with unique keys", "statement": "After any sequence of insertions and erasures an ordered_set/ordered_map holds each key once, find agrees with membership, and iteration visits keys in the order of their (latest effective) insertion.", "quantifier": "every sequence of operations", "why_tests_cant": "Order is determined by the whole history.", "anchors": ["stingraykit/collection/ordered_set.h", "stingraykit/collection/ordered_map.h"]}
{"id": "C18", "title": "flat_set / flat_map are ordered sets / maps", "statement": "After any sequence of insertions (with or without hints), assignments and erasures a flat_set/flat_map is strictly sorted and its contents and results are those of the abstract set/map; a wrong hint never corrupts it.", "quantifier": "every sequence of operations, every hint position and every strict weak ordering", "why_tests_cant": "Binary search and hint checks must be right at every position.", "anchors": ["stingraykit/collection/flat_set.h", "stingraykit/collection/flat_map.h"]}
{"id": "C19", "title": "inplace_vector behaves as a sequence", "statement": "push_back, at, size, resize/clear and copies of inplace_vector behave as on a plain sequence whether or not the elements overflow the inline storage.", "quantifier": "every inline capacity and every sequence of operations", "why_tests_cant": "Inline/dynamic boundary must be right for each capacity and history.", "anchors": ["stingraykit/collection/inplace_vector.h"]}
{"id": "C20", "title": "bimap stays a bijection", "statement": "After any sequence of insertions and erasures the left-to-right and right-to-left views of a bimap describe the same set of pairs and are mutually inverse.", "quantifier": "every sequence of insertions and erasures", "why_tests_cant": "Collisions on either side depend on history.", "anchors": ["stingraykit/collection/bimap.h"]}
{"id": "C21", "title": "Reference-counting containers fire first/last callbacks exactly on the edges", "statement": "In the reference-counting map/set, an element is present exactly while its additions outnumber its removals, the \"added\" effect happens exactly on 0 to 1 and the \"removed\" effect exactly on 1 to 0.", "quantifier": "every sequence of additions and removals on any keys in which no removal callback throws (throwing callbacks: C48)", "why_tests_cant": "Counts over arbitrary histories.", "anchors": ["stingraykit/collection/RefCounter.h", "stingraykit/collection/RefCountingMap.h", "stingraykit/collection/RefCountingSet.h"]}
{"id": "C22", "title": "IntrusiveList links form one consistent ring", "statement": "After any sequence of push_back and erase of nodes, iterating an IntrusiveList forward gives the elements in insertion order with the erased ones removed, iterating backward gives the reverse, and unlinked nodes are detached.", "quantifier": "every sequence of push_back (of nodes that are in no list) and erase on any number of lists", "why_tests_cant": "Pointer updates over arbitrary rings.", "anchors": ["stingraykit/collection/IntrusiveList.h"]}
{"id": "C23", "title": "DataJoiner presents the concatenation", "statement": "Iterating, measuring and indexing a joined byte sequence gives exactly the concatenation of its parts, including empty parts.", "quantifier": "every list of parts and every iterator movement", "why_tests_cant": "Iterator arithmetic across arbitrary (possibly empty) parts.", "anchors": ["stingraykit/collection/DataJoiner.h"]}
{"id": "C24", "title": "TransactionalSet transactions are atomic and behave as a set", "statement": "Inside a transaction, Add/Remove/RemoveWhere/Clear/Contains/GetCount behave as on a plain set initialised with the committed contents; Commit makes exactly the final contents current, Revert (or destroying the transaction) leaves the committed contents untouched, and the internal consistency checks never fail.", "quantifier": "every sequence of transactional operations, every comparer whose equivalence is equality", "why_tests_cant": "History of additions and removals that may cancel each other.", "anchors": ["stingraykit/collection/TransactionalSet.h"]}
{"id": "C25", "title": "TransactionalDictionary transactions are atomic and behave as a map", "statement": "Inside a transaction, Add/Set/Remove/RemoveWhere/Clear/Get/TryGet/ContainsKey/GetCount behave as on a plain map initialised with the committed contents; Commit makes exactly the final contents current, Revert leaves the committed contents untouched, and the internal consistency checks never fail.", "quantifier": "every sequence of transactional operations, every key comparer whose equivalence is equality", "why_tests_cant": "History of additions, updates and removals that may cancel each other.", "anchors": ["stingraykit/collection/TransactionalDictionary.h"]}
{"id": "C26", "title": "Enumerating an open transaction gives its sorted contents", "statement": "The enumerator of an open set/dictionary transaction yields exactly the transaction's current contents, in key order and without repetition, and never fails a consistency check.", "quantifier": "every committed content and every set of pending changes", "why_tests_cant": "Three-way merge over arbitrary interleavings of keys.", "anchors": ["stingraykit/collection/TransactionHelpers.h", "stingraykit/collection/TransactionalSet.h", "stingraykit/collection/TransactionalDictionary.h"]}
{"id": "C27", "title": "OnChanged diffs replay to the contents", "statement": "An observer that starts with the Added entries sent at connection and applies every OnChanged diff in order always holds exactly the committed contents of the set/dictionary.", "quantifier": "every sequence of committed and reverted transactions and every connection point", "why_tests_cant": "Quantifies over complete histories.", "anchors": ["stingraykit/collection/TransactionalSet.h: Commit, OnChangedPopulator", "stingraykit/collection/TransactionalDictionary.h: Commit, OnChangedPopulator"]}
{"id": "C28", "title": "TransactionalList diffs replay to the contents", "statement": "Applying the diff produced by a list transaction, with Apply, to a list equal to the old contents produces the new contents.", "quantifier": "every pair of old and new list contents", "why_tests_cant": "Index-shifting diffs on arbitrary lists.", "anchors": ["stingraykit/collection/TransactionalList.h: MakeDiff, Apply, Commit"]}
{"id": "C29", "title": "Enumerators are snapshots and transactions exclude each other", "statement": "An enumerator obtained from a transactional collection keeps yielding the contents at the time it was obtained whatever is committed later, and at most one transaction is open at any time.", "quantifier": "every interleaving of enumeration with commits and of transaction starts and ends", "why_tests_cant": "Copy-on-write depends on the interleaving.", "anchors": ["stingraykit/collection/TransactionalSet.h: CopyOnWrite, StartTransaction", "stingraykit/collection/TransactionalDictionary.h: CopyOnWrite, StartTransaction"]}
{"id": "C30", "title": "Bit fields round-trip and do not touch their neighbours", "statement": "Setting a bit field of any width and offset through a bit getter and reading it back returns the value modulo 2^width, and changes no other bit of the buffer.", "quantifier": "every buffer, offset, width up to 64 and value, for big-endian and little-endian order", "why_tests_cant": "Mask/shift arithmetic over all offsets, widths and values.", "anchors": ["stingraykit/BitsGetter.h"]}
{"id": "C31", "title": "UTF-8 iteration decodes encoded text and moves reversibly", "statement": "Iterating a UTF-8 range over the encoding of any sequence of code points yields that sequence, forward and backward steps are inverse, and a malformed lead or continuation byte is rejected.", "quantifier": "every sequence of Unicode scalar values", "why_tests_cant": "All code points and all positions.", "anchors": ["stingraykit/string/Utf8IteratorRange.h"]}
{"id": "C32", "title": "Utf8 validation accepts exactly well-formed UTF-8", "statement": "Utf8Validate accepts a byte string exactly when it is well-formed UTF-8 (no overlong forms, surrogates or values above U+10FFFF).", "quantifier": "every byte string", "why_tests_cant": "All byte strings.", "anchors": ["stingraykit/string/Utf8IteratorRange.h", "stingraykit/string/Utf8StringUtils.h"]}
{"id": "C33", "title": "BigUnsignedInteger arithmetic is exact", "statement": "Addition, subtraction (with underflow rejected), multiplication, division with remainder, shifts and bitwise operations on BigUnsignedInteger agree with arithmetic on natural numbers for operands of any length.", "quantifier": "all pairs of natural numbers of any size", "why_tests_cant": "Carry chains of unbounded length.", "anchors": ["stingraykit/BigNum.h", "stingraykit/BigNum.cpp"]}
{"id": "C34", "title": "BigUnsignedInteger comparison is the numeric order", "statement": "operator== and operator< on BigUnsignedInteger agree with equality and order of the represented numbers.", "quantifier": "all pairs of representable values, including zero in all its constructible forms", "why_tests_cant": "All pairs of values and representations.", "anchors": ["stingraykit/BigNum.cpp: operator==, operator<", "stingraykit/BigNum.h: IsZero"]}
{"id": "C35", "title": "Alignment, gcd and fraction helpers", "statement": "AlignUp/AlignDown return the nearest multiple at or above/below; Gcd is the greatest common divisor; Lcm the least common multiple; IsPowerOfNumber decides powers.", "quantifier": "all integer arguments in the documented domain", "why_tests_cant": "All integers.", "anchors": ["stingraykit/math.h", "stingraykit/math.cpp"]}
{"id": "C36", "title": "BufferedStream is transparent", "statement": "Reading, seeking and telling through a BufferedStream returns the same bytes and positions as the underlying stream.", "quantifier": "every underlying stream content, buffer size and alignment and every sequence of Read, Seek and Tell", "why_tests_cant": "Buffer window arithmetic over arbitrary histories.", "anchors": ["stingraykit/io/BufferedStream.h"]}
{"id": "C37", "title": "Windowed byte streams expose exactly their window", "statement": "ByteStreamWithOffset and ByteStreamWithOffsetAndSize never read or write outside the window and behave as a stream over it.", "quantifier": "every window and every sequence of Read, Write, Seek and Tell", "why_tests_cant": "Offset arithmetic over arbitrary histories.", "anchors": ["stingraykit/io/ByteStreamWithOffset.h", "stingraykit/io/ByteStreamWithOffsetAndSize.h", "stingraykit/io/MemoryByteStream.h"]}
{"id": "C38", "title": "BithreadPipe transfers the written bytes in order", "statement": "If writes do not overlap, readers of a BithreadPipe obtain exactly the bytes written, in order and without gaps or repetition; a write that returns was read completely; a write that throws (cancellation, timeout) was read up to some point and its rest is never read; no reader stays blocked while there is data and no writer when its data was taken.", "quantifier": "every interleaving of one writer and one reader, every split of reads and writes and every cancellation point", "why_tests_cant": "All interleavings.", "anchors": ["stingraykit/io/BithreadPipe.h"]}
{"id": "C39", "title": "After UnregisterCancellationHandler returns the handler is not used", "statement": "For every interleaving of Cancel and handler registration/unregistration: a handler registered before cancellation is invoked at most once per cancellation, never after unregistration returned, and unregistration waits for an invocation in progress.", "quantifier": "every interleaving of any number of Cancel calls with register/unregister", "why_tests_cant": "Races only visible in particular schedules.", "anchors": ["stingraykit/thread/CancellationToken.cpp: Impl::Cancel, TryRegisterCancellationHandler, UnregisterCancellationHandler"]}
{"id": "C40", "title": "CancellationToken operations never wedge", "statement": "A thread in UnregisterCancellationHandler or Sleep is eventually able to proceed once a Cancel call completed.", "quantifier": "every interleaving of Cancel, Reset, Sleep and unregistration", "why_tests_cant": "A lost wake-up needs one particular schedule.", "anchors": ["stingraykit/thread/CancellationToken.cpp: Impl::Reset, UnregisterCancellationHandler, Sleep"]}
{"id": "C41", "title": "After TaskLifeToken::Release returns no guarded task runs", "statement": "Once Release (called from a thread that is not inside a guarded task) returned, no task guarded by that token is running and none will start.", "quantifier": "every interleaving of any number of guarded executions with Release", "why_tests_cant": "Races only visible in particular schedules.", "anchors": ["stingraykit/thread/TaskLifeToken.cpp"]}
{"id": "C42", "title": "ThreadTaskExecutor runs every task once, in order, and drains on destruction", "statement": "Tasks run in the order in which AddTask accepted them, each at most once, and, provided no exception other than std::exception escapes a task and the exception handler does not throw, all accepted tasks have been run (or suppressed by their own dead tester) when the executor thread finishes; while there are tasks the worker is never stuck.", "quantifier": "every interleaving of producers with the worker and the cancellation", "why_tests_cant": "All schedules.", "anchors": ["stingraykit/thread/ThreadTaskExecutor.cpp"]}
{"id": "C43", "title": "Timer fires tasks in deadline order and never before their deadline or after cancellation", "statement": "A timer task starts only when its deadline has passed; its first deadline is the clock at the call plus the timeout, the next one of a periodic task is the moment it was taken plus the period; tasks are taken in deadline order (ties in insertion order); a one-shot task runs at most once; after its token is released the task never starts again (and, released by another thread, is not running); no added task is lost, the worker never sleeps past a deadline, and at destruction every task already due is executed.", "quantifier": "every interleaving of SetTimeout/SetTimer/AddTask, token releases and clock advances", "why_tests_cant": "All schedules and clock readings.", "anchors": ["stingraykit/timer/Timer.cpp"]}
{"id": "C44", "title": "A future is assigned once and every reader sees that assignment", "statement": "For every interleaving, at most one set_value/set_exception takes effect, later set_value calls throw PromiseAlreadySatisfied, the result never changes afterwards, get returns it, and destroying an unsatisfied promise makes the future fail with BrokenPromise.", "quantifier": "every interleaving of setters, getters and promise destruction", "why_tests_cant": "All schedules.", "anchors": ["stingraykit/future.h"]}
{"id": "C45", "title": "ThreadPool keeps its thread limit, runs every accepted task once and loses no wake-up of WaitQueue", "statement": "The pool never has more than maxThreads threads. Queue, TryQueue and WaitQueue refuse (or wait with) a task only if all threads the pool may have were busy when the call began; CanQueue tells the same. Every accepted task is started exactly once, by a thread that is never left asleep with it, as long as the pool is not destroyed; no thread is removed while it has a task, and the removal cannot deadlock. A caller of WaitQueue never sleeps while there is room unless a thread is about to wake it.", "quantifier": "all maxThreads >= 1, all interleavings of any number of callers, the first thread and the workers, including timeouts and spurious wake-ups", "why_tests_cant": "The claims are about all schedules of the pool's mutex, the workers' mutexes and three condition variables.", "anchors": ["stingraykit/thread/ThreadPool.cpp"]}
{"id": "C46", "title": "A promise hands out its future at most once", "statement": "get_future succeeds exactly once for each promise state, and FutureAlreadyRetrieved is thrown afterwards, also after swap.", "quantifier": "every sequence of get_future and swap on any promises", "why_tests_cant": "Sequences of swaps.", "anchors": ["stingraykit/future.h: promise::swap, promise::get_future"]}
{"id": "C47", "title": "Copies of the ordered and flat containers equal the original", "statement": "Copy construction, copy assignment and assignment to itself of ordered_set/ordered_map/flat_set/flat_map yield a container with the contents, iteration order and lookup results of the original.", "quantifier": "every reachable container, every comparer, target equal to or different from the source", "why_tests_cant": "Only particular comparers and aliasing situations reveal a loss.", "anchors": ["stingraykit/collection/ordered_set.h", "stingraykit/collection/ordered_map.h", "stingraykit/collection/flat_set.h", "stingraykit/collection/flat_map.h"]}
{"id": "C48", "title": "Throwing callbacks leave the reference-counting containers consistent", "statement": "If the callback given to add/set or erase/release of a reference-counting map, set, value or counter throws, the container is left as if the call had not been made or had been completed: counts, presence and later callbacks stay correct.", "quantifier": "every history in which any callback may throw", "why_tests_cant": "The state after a throwing callback matters only together with the rest of the history, and all histories must be considered.", "anchors": ["collection/RefCountingMap.h: RefCountingMap::add, erase", "collection/RefCountingSet.h: RefCountingSet::add, erase", "collection/RefCountingValue.h: RefCountingValue", "collection/RefCounter.h: RefCounter"]}
{"id": "C49", "title": "Conversion to UTF-8 preserves the text", "statement": "StringCodec::ToUtf8 of a text encoded in Latin-1, UTF-8, UTF-16 or UTF-32 (either byte order, with or without byte order mark) is the UTF-8 encoding of the same characters; a stray continuation byte in UTF-8 is not read as a character.", "quantifier": "every sequence of Unicode scalar values and every supported encoding", "why_tests_cant": "conversion ranges over all texts; surrogate pairs are easily missed by example tests", "anchors": ["locale/StringCodec.cpp ToUtf8, PackUtf8, Unpack_ISO_10646_*, GetEncoding"]}
{"id": "C50", "title": "LocaleString comparison is an order on the text", "statement": "StringCodec::Compare is a total preorder on arbitrary strings in arbitrary encodings and orders correctly encoded texts by their characters, independently of the encodings.", "quantifier": "every pair and triple of byte strings and encodings", "why_tests_cant": "order laws quantify over all pairs and triples", "anchors": ["locale/StringCodec.cpp Compare"]}
{"id": "C51", "title": "Code page 866 round trip and unmapped characters", "statement": "A byte string without the unsupported bytes B0-DF survives FromCodePage(866) followed by ToCodePage(866), and the intermediate text is well-formed UTF-8. ToCodePage(866) turns each character of a text into one byte: the byte of the code page that stands for it, or a question mark exactly when the code page, as supported, has no such character.", "quantifier": "every byte string", "why_tests_cant": "must hold for all strings", "anchors": ["locale/StringCodec.cpp ToCodePage, FromCodePage, Pack_CP866, Unpack_CP866"]}
{"id": "C52", "title": "Utf8Substring cuts at character boundaries", "statement": "Utf8Substring by symbols returns exactly the requested characters; by bytes it starts at the first boundary at or after the position and returns the longest run of whole characters that fits; a position beyond the end throws.", "quantifier": "every text, position and count", "why_tests_cant": "all texts and all positions relative to character boundaries", "anchors": ["string/Utf8StringUtils.h Utf8Substring"]}
{"id": "C53", "title": "Utf8ToLower maps characters one by one", "statement": "Without ICU, Utf8ToLower of a well-formed text is the text with every ASCII and Cyrillic capital letter replaced by its small letter, and everything else unchanged.", "quantifier": "every sequence of scalar values", "why_tests_cant": "all texts", "anchors": ["string/Unicode.cpp Utf8ToLower"]}
{"id": "C54", "title": "BigUnsignedInteger text and byte conversion", "statement": "Parsing a string of digits in a base yields the number it spells and rejects every other string; printing in bases 2 to 36 spells the number without leading zeroes; parsing the printed text gives the number back; conversion from and to big-endian bytes and to primitive types is exact or rejected.", "quantifier": "all numbers of any size, all bases, all strings and byte sequences", "why_tests_cant": "All numbers and strings.", "anchors": ["stingraykit/BigNum.cpp: LoadFromString, Dump, ToString", "stingraykit/BigNum.h: ToPrimitive, LoadFromData"]}
{"id": "C55", "title": "Rounded fractions", "statement": "CalculateFractionRemainder returns the fractional part of the quotient rounded to the requested number of digits (fewer only if 64 bits do not suffice), with the carry into the integer part reported; ParseDecimalFraction does the same for a text of digits.", "quantifier": "all dividends, divisors, precisions and radices; all digit strings", "why_tests_cant": "All quotients and precisions.", "anchors": ["stingraykit/math.cpp: RoundFraction, CalculateFractionRemainder, ParseDecimalFraction"]}
{"id": "C56", "title": "MemoryByteStream is a byte array with a position", "statement": "A MemoryByteStream behaves as a byte array with a position: reads return the bytes from the position on, a growing container is extended by writes, a fixed one takes what fits, a constant one rejects writes, Seek reaches every position from the beginning to the end, Tell returns the position.", "quantifier": "every content, kind of container and sequence of calls", "why_tests_cant": "unbounded contents and call sequences", "anchors": ["io/MemoryByteStream.h: MemoryByteStream"]}
{"id": "C57", "title": "ChunkedMemoryByteStream is one byte array", "statement": "A ChunkedMemoryByteStream behaves as the concatenation of its chunks: reads cross chunk boundaries, seeks reach every position, writing at the end appends and writing inside overwrites.", "quantifier": "every division into chunks, every position and every call", "why_tests_cant": "unbounded chunk structures, including empty chunks", "anchors": ["io/ChunkedMemoryByteStream.h: ChunkedMemoryByteStream"]}
{"id": "C58", "title": "Lines and buffered pipes lose no byte", "statement": "ReadLine returns exactly the text up to the next LF, CRLF or lone CR (or the end) and leaves the stream right after the terminator, none exactly at the end of the data, and a cancelled call never returns a truncated line; lines written with a terminator are read back. PipeReader::ReadLine does so for LF and CRLF, rejects a lone CR and returns the unterminated last line of a closed pipe. BufferedPipe hands out the bytes of the pipe below in order, each exactly once.", "quantifier": "every byte sequence, position, cancellation point, split of reads", "why_tests_cant": "all byte strings, all schedules of short reads and cancellations", "anchors": ["io/IByteStream.h: ReadLine", "io/PipeReader.cpp: PipeReader::ReadLine", "io/BufferedPipe.cpp: BufferedPipe"]}
{"id": "C59", "title": "No lost cancellation of a condition variable wait", "statement": "A thread that waits on a condition variable with a cancellation token returns from Wait once the token is cancelled, whatever the interleaving with registration, broadcasts, timeouts and spurious wakeups (the mutex being released by others); when Wait returns the caller holds the mutex, the cancellation handler is no longer being called, and Cancelled is returned only if the token is cancelled.", "quantifier": "every interleaving of any number of waiting threads, Cancel calls, broadcasts, timeouts and spurious wakeups", "why_tests_cant": "A lost wakeup or a dangling handler needs one particular schedule.", "anchors": ["stingraykit/thread/posix/PosixConditionVariable.cpp: CancellationHolder, Wait, TimedWait", "stingraykit/thread/CancellationToken.cpp: Impl::Cancel"]}
{"id": "C60", "title": "A joined token wakes its waiter when either token is cancelled", "statement": "A wait or sleep with a JoiningCancellationToken returns when either of the two joined tokens is cancelled, whether before or during the wait; once the wait has returned no canceller uses the waiter's handler (which lived on its stack), no token still refers to it, the same tokens can be waited on again, and neither the waiter nor a canceller deadlocks while the handlers are unregistered.", "quantifier": "every interleaving of cancellation of the two tokens, broadcasts, spurious wake-ups and timeouts with any number of consecutive waits", "why_tests_cant": "Depends on the order of cancellation and registration.", "anchors": ["stingraykit/thread/JoiningCancellationToken.cpp: TryRegisterCancellationHandler", "stingraykit/thread/posix/PosixConditionVariable.cpp: Wait"]}
{"id": "C61", "title": "Barrier lets threads through in full batches", "statement": "Barrier::Wait returns only after the required number of threads have called it, exactly one thread of each batch gets true, the barrier can be used again at once, and no thread of a complete batch stays blocked.", "quantifier": "every interleaving of any number of threads calling Wait any number of times, with spurious wakeups", "why_tests_cant": "Needs particular schedules of re-entry and wakeups.", "anchors": ["stingraykit/thread/Barrier.h: Wait"]}
{"id": "C62", "title": "ThreadlessTaskExecutor runs tasks once, in order, one caller at a time", "statement": "Tasks leave a ThreadlessTaskExecutor in the order of AddTask, each at most once (executed or cleared); two calls of ExecuteTasks never execute tasks at the same time; a call is refused exactly when another call is in progress (also the one around the calling task); a call that returns normally leaves no task unless its token was cancelled.", "quantifier": "every interleaving of AddTask, ExecuteTasks, ClearTasks by any number of threads, also from inside tasks", "why_tests_cant": "All schedules and re-entrant calls.", "anchors": ["stingraykit/thread/ThreadlessTaskExecutor.cpp: AddTask, ExecuteTasks, ClearTasks"]}
{"id": "C63", "title": "A timer task's function object is not destroyed while it runs", "statement": "While a task of a Timer runs, its function object (with everything bound into it) exists.", "quantifier": "every interleaving of timer operations, including a task that releases its own token", "why_tests_cant": "Depends on when the token is released.", "anchors": ["stingraykit/timer/Timer.cpp: CallbackInfo::Release, Timer::RemoveTask, Timer::ExecuteTask"]}
{"id": "C64", "title": "No handler runs after its connection is reset", "statement": "After the token of a connection to a thread-safe signal was reset, the handler is never called again and no thread is inside it, except the thread that reset it from inside the handler; resetting from outside the handler waits until the handler has returned.", "quantifier": "every interleaving of raising, connecting, disconnecting and locking by any number of threads, also from inside handlers", "why_tests_cant": "Needs a reset to race with a call in another thread.", "anchors": ["stingraykit/signal/signals.h: Connection::~Connection, CancellableStorage::Invoke, InvokeAll", "stingraykit/function/CancellableFunction.h", "stingraykit/thread/TaskLifeToken.cpp"]}
{"id": "C65", "title": "Raising a signal calls every connected handler once, in order", "statement": "Raising a signal calls, in the order of connecting, each handler that was connected when it was raised and not reset before its turn, exactly once, with the value; handlers connected meanwhile are not called.", "quantifier": "every interleaving, also with connecting, disconnecting and raising from inside handlers", "why_tests_cant": "All schedules and re-entrant uses.", "anchors": ["stingraykit/signal/signals.h: InvokeAll, AddHandler, RemoveHandler, Connect"]}
{"id": "C66", "title": "ObservableValue shows every value to every observer", "statement": "Whenever nobody is setting the value, a connected observer has been called with the value at the time of connecting (if it is to be populated) and then with every value that was set since, in order and once; successive values differ; the last one it saw is the current one.", "quantifier": "every interleaving of Set, connecting and disconnecting by any number of threads", "why_tests_cant": "Depends on schedules and on what handlers do.", "anchors": ["stingraykit/ObservableValue.h: Set, OnChanged, OnChangedPopulator", "stingraykit/signal/signals.h: Connect, InvokeAll"]}
{"id": "C67", "title": "A thread that has locked a signal is not blocked", "statement": "The thread that has locked a signal can always go on to raise it, call handlers and reset connections without waiting for a thread that waits for the signal.", "quantifier": "every interleaving of raising, connecting, disconnecting and locking by any number of threads, also from inside handlers", "why_tests_cant": "A deadlock needs one particular schedule.", "anchors": ["stingraykit/signal/signals.h: InvokeAll, CancellableStorage::Invoke, signal_locker", "stingraykit/thread/TaskLifeToken.cpp: TryStartExecution, Kill"]}
{"id": "C68", "title": "Arithmetic coder and decoder are inverse", "statement": "For any sequence of parts [low, high) of scales that are encoded one after the other, the encoder does not fail, and the decoder, reading the bits that were written, finds for each scale a value inside the part that was encoded, whatever comes after these bits.", "quantifier": "all sequences of parts with scales up to 2^29, all continuations of the bits", "why_tests_cant": "The state of the coder (registers and pending bits) depends on the whole history; round-trip tests cover a few sequences, and the lost pending bits at the end show only for some of them.", "anchors": ["stingraykit/compression/ArithmeticCoder.h: ArithmeticCoder::Encode, EndOfData", "stingraykit/compression/ArithmeticDecoder.h: ArithmeticDecoder"]}
{"id": "C69", "title": "PPM decompression gives back the data", "statement": "For every dictionary that was built from data and every sequence of bytes, compressing succeeds, and decompressing what the compressor wrote, whatever follows it, gives back exactly these bytes and then the end of the data.", "quantifier": "all dictionaries (levels, contexts, counts), all byte sequences, all continuations", "why_tests_cant": "Compressor and decompressor must make the same choice of contexts and parts at each symbol of each data; tests compress a few files.", "anchors": ["stingraykit/compression/ppm/PpmModel.h: Model, Predict, Decode, DoPredict, DoDecode", "stingraykit/compression/ppm/PpmCompressor.h: PpmCompressor", "stingraykit/compression/ppm/PpmDecompressor.h: PpmDecompressor"]}
{"id": "C70", "title": "Bit buffers of the compressor are queues", "statement": "The bytes that the consumer of the compressor gets are the bits that the coder wrote, in order, packed from the highest bit and padded at the end, however many bytes the consumer takes at a time; the decompressor reads the bits of the bytes it was given in order, accepting as many bytes as fit.", "quantifier": "all histories of adding bits, consuming and ending, all consumers, all buffer sizes", "why_tests_cant": "The ring wraps at positions that depend on the whole history of writes and of partial consumption; the ends that never finish need a length modulo the buffer size that tests do not hit.", "anchors": ["stingraykit/compression/ppm/PpmCompressor.h: BitsToBytesBuffer, PpmCompressor::ConsumeData", "stingraykit/compression/ppm/PpmDecompressor.h: BytesToBitsBuffer, PpmDecompressor::ProcessInput"]}
{"id": "C71", "title": "Calendar conversion is the Gregorian calendar", "statement": "Converting seconds since 1970 to a broken down UTC time gives the date of the proleptic Gregorian calendar, the time of day, the day of the week and the day of the year, before and after 1970; converting fields back gives the second they denote, with months, days, hours, minutes and seconds beyond their range carried over; the two conversions are inverse.", "quantifier": "all times that fit into 64-bit milliseconds, all field values", "why_tests_cant": "Leap years, 400-year cycles and negative times combine in ways that samples of dates do not cover; the loops walk years and months and each boundary (last day of February, of a century, of a cycle, one second before) is its own case.", "anchors": ["stingraykit/time/posix/TimeEngine.cpp: gmtime64_r, timegm64"]}
{"id": "C72", "title": "Broken down times", "statement": "Breaking a time down (UTC or local) gives fields in their ranges that name its calendar day and time of day, FromBrokenDownTime is the inverse, comparison of broken down times is chronological, and DaysTo is the difference of calendar days.", "quantifier": "all times, all time zone offsets, all pairs of times", "why_tests_cant": "The error at -1 seconds, the sign of milliseconds before 1970 and the 16-bit year show only at particular times.", "anchors": ["stingraykit/time/Time.cpp: Time::BreakDown, Time::FromBrokenDownTime, Time::DaysTo", "stingraykit/time/posix/TimeEngine.cpp: TimeEngine::BrokenDownFromMilliseconds, TimeEngine::MillisecondsFromBrokenDown", "stingraykit/time/BrokenDownTime.cpp: BrokenDownTime::Compare"]}
{"id": "C73", "title": "Conversions between time representations", "statement": "Modified Julian day with BCD time, NTP seconds, fixed point NTP timestamps, Windows file times and time_t denote the same instants as the Time they are converted from or to, and round trips lose only the precision of the representation.", "quantifier": "all times and all values of each representation", "why_tests_cant": "Errors depend on sign, sub-second part and era of the time; a test uses a few dates near the present.", "anchors": ["stingraykit/time/Time.cpp: Time::MjdToEpoch, Time::GetMjd, Time::GetBcdTime, Time::ToNtpTimestamp, Time::FromNtpTimestamp, Time::FromWindowsFileTime, TimeDuration::FromBcdDuration", "stingraykit/time/Time.h: Time::ToTimeT, Time::FromTimeT", "stingraykit/time/NtpTimestamp.cpp: NtpTimestamp::ToTime, NtpTimestamp::FromTime"]}
{"id": "C74", "title": "Arithmetic of times and durations", "statement": "The getters of a duration cut its exact length, RoundToMilliseconds is the nearest millisecond, Absolute the absolute value, time differences and sums are consistent (b + (a - b) = a, (t + d) + e = t + (d + e)), and comparison with jitter is usable as an order.", "quantifier": "all times, durations and jitters", "why_tests_cant": "Truncation towards zero at each step and non-transitivity need particular combinations of signs and remainders.", "anchors": ["stingraykit/time/Time.h: TimeDuration, Time", "stingraykit/time/Time.cpp: TimeDuration::Absolute, TimeDuration::RoundToMilliseconds, TimeCmp::operator()"]}
{"id": "C75", "title": "Integers to text and back", "statement": "ToString of an integer is its decimal representation without leading zeros; FromString accepts exactly an optional sign followed by digits, returns the number if the type can hold it and reports an out of range, format or empty-string error otherwise; every value survives the way through text.", "quantifier": "all integer types, all values, all strings", "why_tests_cant": "The limits of each type, leading zeros of any length and the negation of the least value are boundary cases of an unbounded set of strings.", "anchors": ["stingraykit/string/string_stream.cpp: basic_string_ostream::Insert", "stingraykit/string/ToString.h: FromString, ParseIntegralType"]}
{"id": "C76", "title": "Hexadecimal text", "statement": "ToHex denotes the value, has at least the requested width and no other leading zeros; FromHex returns the number of a hexadecimal string if the type can hold it and an error otherwise; integers and byte arrays survive the way through text (either letter case, with or without 0x); a short dump shows the first bytes and marks when there are more.", "quantifier": "all values, widths, strings, byte arrays and limits", "why_tests_cant": "Unbounded strings and widths; the overflow check works digit by digit.", "anchors": ["stingraykit/string/Hex.h: FromHex, ToHex, ShortHexDump"]}
{"id": "C77", "title": "Splitting and joining strings", "statement": "Split cuts the string exactly at the leftmost occurrences of the delimiter (at most limit cuts when a limit is given), so the pieces joined with the delimiter are the string again and, without limit, contain no delimiter; Join puts the separator exactly between the pieces; Split of a joined list gives the list back.", "quantifier": "all strings, delimiters, limits and lists of strings", "why_tests_cant": "Unbounded strings with overlapping delimiter candidates, empty pieces and limits; an empty delimiter and rewinding are corner cases.", "anchors": ["stingraykit/string/StringUtils.h: Split, SplitStringRange, IsAnyOf, Join"]}
{"id": "C78", "title": "Replacing, stripping and string references", "statement": "ReplaceAll replaces exactly the leftmost non-overlapping occurrences and never looks into replaced text; Strip removes exactly the longest prefix and suffix of the given characters; find and substr of a StringRef stay inside the referenced part.", "quantifier": "all strings, patterns, replacements, character sets and references", "why_tests_cant": "Overlaps between replacement and pattern, and matches that cross the end of a reference, depend on the particular strings.", "anchors": ["stingraykit/string/StringUtils.h: ReplaceAll, Strip, LeftStrip, RightStrip, StringRef"]}
{"id": "C79", "title": "Edit distance", "statement": "EditDistance(a, b) is the least number of insertions, removals and replacements of one character that turn a into b; it is a metric.", "quantifier": "all pairs (and triples) of strings", "why_tests_cant": "Minimality ranges over all edit sequences.", "anchors": ["stingraykit/string/StringUtils.cpp: EditDistance"]}
{"id": "C80", "title": "Aho-Corasick search reports every occurrence", "statement": "After adding any patterns and building, Search calls back for exactly the occurrences of the patterns in the text, each with its position, ordered by end and then by decreasing length.", "quantifier": "all lists of patterns, all texts", "why_tests_cant": "Fail links interact between all pairs of patterns; overlapping and nested patterns are exponentially many.", "anchors": ["stingraykit/string/AhoCorasick.h: Add, Build, Search"]}
{"id": "C81", "title": "StringParse", "statement": "StringParse(string, format, args...) succeeds exactly if the string is the format with every place %i% replaced by a text that is read into argument i; otherwise it fails and leaves the arguments alone.", "quantifier": "all strings, formats and readers of the arguments", "why_tests_cant": "Formats and strings are unbounded and the search for the text after a place can match early.", "anchors": ["stingraykit/string/StringParse.h: StringParse"]}
{"id": "C82", "title": "variant holds exactly one live alternative", "statement": "After any sequence of constructions, assignments, emplacements, moves and destructions, including those whose element constructors throw, a variant holds exactly the alternative and value last stored, every value that was constructed is destroyed once, get<T> returns the value or throws bad_variant_get, and comparison orders by alternative and then by value.", "quantifier": "all histories of operations over any number of variants, all places where constructors throw", "why_tests_cant": "The outcome depends on the history of the storage, on aliasing of source and target and on which constructor throws; tests exercise few combinations and do not see a read of destroyed memory.", "anchors": ["stingraykit/variant.h: variant, VariantBase, get, which", "stingraykit/metaprogramming/MultiStorageFor.h"]}
{"id": "C83", "title": "optional is a value or nothing", "statement": "After any sequence of constructions, assignments (also to itself), emplacements, moves, swaps, resets and destructions, including those that throw, an optional is what a value-or-nothing variable would be, values are constructed and destroyed alternately, and the comparison operators and Compare agree with the order that puts nothing first.", "quantifier": "all histories of operations over any number of optionals, all places where constructors or assignments throw", "why_tests_cant": "The state of the storage depends on the whole history; a missed destruction or a double construction is invisible to tests of results.", "anchors": ["stingraykit/optional.h: optional, Compare"]}
{"id": "C84", "title": "any holds the value last stored", "statement": "After any sequence of constructions, assignments, moves and destructions an any holds the type and value last stored, Get of that type returns it and of any other type returns null, and every owned value is destroyed once.", "quantifier": "all histories of operations over any number of any objects, all places where copying throws", "why_tests_cant": "Depends on the history of type tag and storage together with the place where a copy throws.", "anchors": ["stingraykit/any.h: any", "stingraykit/any.cpp: Copy, Move, Destroy"]}
{"id": "C85", "title": "shared_ptr and weak_ptr: one deletion, no use after free", "statement": "In every interleaving of copies, drops, weak_ptr::lock and release_if_unique in any number of threads the object is deleted exactly once, not before the last shared_ptr is gone, the control block is freed exactly once and not used afterwards, lock returns a pointer only to a live object, and release_if_unique succeeds only for the last pointer.", "quantifier": "all schedules of any number of threads and pointers", "why_tests_cant": "Races between lock and the last release have windows of a few instructions; tests cannot enumerate the schedules.", "anchors": ["stingraykit/shared_ptr.h: SharedPtrImpl, shared_ptr, weak_ptr"]}
{"id": "C86", "title": "self_count_ptr: one deletion", "statement": "In every interleaving of operations on self_count_ptr variables use_count is the number of pointers to the object, an object with a pointer to it is not deleted, an object without one is deleted exactly once, and assignment stores the value of its argument whatever aliases.", "quantifier": "all schedules of any number of threads, objects and pointers", "why_tests_cant": "The order of counter operations of different threads and aliasing of the operands cannot be enumerated by tests.", "anchors": ["stingraykit/self_counter.h: self_count_ptr, self_counter"]}
{"id": "C87", "title": "Range adaptors show exactly the right elements, in any composition", "statement": "Filter, OfType, Reverse, Transform, Cast, Drop, Take, Cycle, Split, Flatten, Zip and Concat, applied to any ranges that behave like sequences, give ranges that behave like sequences: forward they show exactly the elements that the adaptor is for, in order, First, Next, Last and Prev move to the neighbouring elements of that sequence, two positions are equal iff they are the same, and a cached value never belongs to another element.", "quantifier": "all element sequences, all functors, all nestings of adaptors, all sequences of moves", "why_tests_cant": "Every adaptor can be applied to every other one, and boundary conditions (empty subranges, ends, exact multiples) appear only in certain compositions.", "anchors": ["stingraykit/collection/Range.h: RangeFilter, RangeOfType, RangeReverser, RangeTransformer, RangeDropper, RangeTaker, RangeCycler, RangeSplitter, RangeFlattener, RangeZipper, RangeConcater, IteratorRange, RangeSingle"]}
{"id": "C88", "title": "Range algorithms agree with the sequence", "statement": "ForEach, Count, Contains, AnyOf, AllOf, NoneOf, IndexOf, ElementAt, Fold, Sum, MinElement and MaxElement over any range that behaves like a sequence, and for loops over it, visit every element once in order and return what the same function of the sequence is; MinElement and MaxElement return the first of equal candidates.", "quantifier": "all ranges obeying the law of C87, all positions, predicates, functors and strict weak orders", "why_tests_cant": "The statement ranges over all ranges and predicates.", "anchors": ["stingraykit/collection/Range.h: ForEach, Count, Contains, AnyOf, AllOf, NoneOf, IndexOf, ElementAt, Fold, MinElement, MaxElement", "stingraykit/collection/RangeBase.h: begin, end"]}
{"id": "C89", "title": "Random access to ranges", "statement": "GetPosition, GetSize and Move of a random access range and of its adaptors agree with its sequence: Move(d) goes to the position d elements away, the end included, and throws if there is no such position.", "quantifier": "all positions and distances, all compositions of IteratorRange, RangeSingle, Transform, Cast, Drop, Take, Reverse", "why_tests_cant": "The arithmetic has boundary cases at both ends and the conversions between signed and unsigned distances wrap.", "anchors": ["stingraykit/collection/Range.h: Move, GetPosition, GetSize"]}
{"id": "C90", "title": "Times survive ISO 8601 text", "statement": "TimeUtility::ToIso8601 of a time gives YYYY-MM-DDThh:mm:ss.lllZ of its UTC calendar date, and FromIso8601 gives every such text, with any time zone offset, fraction of seconds and case of letters, exactly the time it denotes, rounded to milliseconds; so the way through text loses nothing. Texts that denote no time are refused.", "quantifier": "all times, all texts of the format", "why_tests_cant": "Dates have irregular boundaries (leap years, the year 1970), and the parser tries formats one after another.", "anchors": ["stingraykit/time/Time.cpp: TimeUtility::ToIso8601, TimeUtility::FromIso8601, FromIso8601Impl"]}
{"id": "C91", "title": "Formatted texts of times", "statement": "BrokenDownTime::ToString(format) replaces each dd, MM, YYYY, yyyy, hh, mm, ss and lll by the number of its field, filled with zeros to the width of the field, and copies everything else.", "quantifier": "all field values, all formats", "why_tests_cant": "Formats are arbitrary strings; overlapping occurrences of the letters appear only in certain formats.", "anchors": ["stingraykit/time/BrokenDownTime.cpp: BrokenDownTime::ToString, ReplaceContext, FormatMatcher"]}
{"id": "C92", "title": "Texts of time zones", "statement": "TimeZone::FromString(TimeZone::ToString()) gives the zone back; texts with sign, hours and minutes are read as the offset they denote and refused outside of -12:00 … +14:00.", "quantifier": "all zones and texts", "why_tests_cant": "The range check comes after a conversion to 16 bits, which only large numbers reveal.", "anchors": ["stingraykit/time/Time.cpp: TimeZone::ToString, TimeZone::FromString, TimeZone::TimeZone"]}
{"id": "C93", "title": "Durations survive ISO 8601 text", "statement": "TimeDurationUtility::FromIso8601 of ToIso8601 of a duration, with the same base or without one, is the duration without its fraction of a second. FromIso8601 reads exactly the components that stand in the text and counts years and months in the calendar from the base.", "quantifier": "all durations and bases, all texts of the format", "why_tests_cant": "Depends on leap years, month lengths, and ranges of components; the loops run over years and months.", "anchors": ["stingraykit/time/Time.cpp: TimeDurationUtility::ToIso8601, TimeDurationUtility::FromIso8601, FromIso8601Impl"]}
{"id": "C94", "title": "Formatted texts of durations", "statement": "TimeDuration::ToString(format) replaces h, hh, m, mm, s, ss and runs of l by the hours, minutes, seconds and fraction of the duration, so that the largest unit in the format holds the whole rest, puts a minus sign before the largest unit if the printed value is negative, and copies other and escaped characters.", "quantifier": "all durations, all formats", "why_tests_cant": "Formats are arbitrary strings and durations range over 64 bits.", "anchors": ["stingraykit/time/Time.cpp: TimeDuration::ToString"]}
{"id": "C95", "title": "Collections are values and enumerators are snapshots", "statement": "Copies and assigned collections do not influence each other, and an enumerator, reverse enumerable or enumerator from a position (Find, ReverseFind, GetAll) shows exactly the elements there were when it was obtained, whatever is done to the collection afterwards, and throws when moved past the end.", "quantifier": "all programs of creations, copies, assignments, changes, queries, enumerators taken, moved and dropped, for list, set, dictionary, multi set and multi dictionary", "why_tests_cant": "Storage is shared and copied only when an enumerator is alive: an error shows only in particular histories of enumerators and changes.", "anchors": ["stingraykit/collection/GenericList.h: CopyOnWrite, GetItemsHolder", "stingraykit/collection/GenericSet.h: CopyOnWrite, GetItemsHolder", "stingraykit/collection/GenericDictionary.h: CopyOnWrite, GetItemsHolder", "stingraykit/collection/SortedMultiSet.h: CopyOnWrite, GetItemsHolder", "stingraykit/collection/MultiMapDictionary.h: CopyOnWrite, GetItemsHolder", "stingraykit/collection/EnumerableFromStlContainer.h: IteratorsRangeEnumerator"]}
{"id": "C96", "title": "Lists, sets and dictionaries hold what was put in", "statement": "List: Get, Set, Insert, RemoveAt, Add, IndexOf, Contains, Remove and RemoveAll act on positions as documented, with an exception exactly for indexes out of range. Sets and dictionaries: every history of Add, Set, Remove, RemoveWhere and Clear has the results and contents of an abstract map, in key order or order of insertion; look-ups and searches agree with it.", "quantifier": "all lists, histories of calls, keys, strict weak orders", "why_tests_cant": "Histories are unbounded and keys may be equivalent without being equal.", "anchors": ["stingraykit/collection/GenericList.h: GenericList", "stingraykit/collection/GenericSet.h: GenericSet", "stingraykit/collection/GenericDictionary.h: GenericDictionary"]}
{"id": "C97", "title": "Multi sets and multi dictionaries hold what was put in", "statement": "Every history of Add, RemoveFirst, RemoveAll, RemoveWhere and Clear has the results of an abstract bag of entries; entries are shown in key order, those of one key in the order in which they were added, and the oldest one goes first. Contains, Count, GetFirst, GetAll, Find and ReverseFind agree with it.", "quantifier": "all histories of calls, keys, strict weak orders", "why_tests_cant": "Histories are unbounded; positions of equivalent keys depend on the order of calls.", "anchors": ["stingraykit/collection/SortedMultiSet.h: SortedMultiSet", "stingraykit/collection/MultiMapDictionary.h: MultiMapDictionary"]}
{"id": "C98", "title": "Observers of collections can follow them", "statement": "Every observer of an observable list, set, dictionary, multi set or multi dictionary, whenever it connects, is told the contents and then every change, such that each report makes sense (added: something new; updated, removed: something that is there, with its value) and following the reports it has exactly the contents at any time, also when it looks at the collection in the middle of a report. Being observed changes neither contents nor results.", "quantifier": "all programs of calls, connections and disconnections", "why_tests_cant": "Programs are unbounded, and RemoveWhere, RemoveAll and Clear report many changes whose indexes depend on each other.", "anchors": ["stingraykit/collection/ObservableDictionaryWrapper.h: ObservableDictionaryWrapper", "stingraykit/collection/ObservableSetWrapper.h: ObservableSetWrapper", "stingraykit/collection/ObservableListWrapper.h: ObservableListWrapper", "stingraykit/collection/MultiMapObservableDictionary.h: MultiMapObservableDictionary", "stingraykit/collection/SortedObservableMultiSet.h: SortedObservableMultiSet"]}
{"id": "C99", "title": "Views of a key and of the keys of observable dictionaries and sets follow them", "statement": "Whoever observes the value of one key (or the membership of one element) is told the value on connecting, and from then on the last report always is what Get returns; Set through the view sets or removes that key and leaves the others alone. Whoever observes the set of keys is told a sequence of additions and removals that makes sense for a set and always gives the keys of the dictionary.", "quantifier": "all programs of calls, connections and disconnections before and after the observer connects, all key orders, insertion-ordered and sorted containers, all value types", "why_tests_cant": "The claim is about every program and every moment in it.", "anchors": ["stingraykit/collection/ObservableDictionaryKeyValue.h: ReadonlyObservableDictionaryKeyValue, ObservableDictionaryKeyValue", "stingraykit/collection/ObservableSetEntry.h: ReadonlyObservableSetEntry, ObservableSetEntry", "stingraykit/collection/DictionaryKeysSet.h: ObservableDictionaryKeysSet"]}
{"id": "C100", "title": "Views of a key and of the keys of transactional dictionaries follow commits", "statement": "Whoever observes the value of one key of a transactional dictionary is told the committed value after every commit that changes it, and only then. Whoever observes the keys receives, for exactly the commits that change the set of keys, a non-empty sorted diff between the old and the new keys; changes of values alone are not reported and the internal checks never fail.", "quantifier": "all histories of transactions (changes, reverts, commits) before and after the observer connects, all total key orders", "why_tests_cant": "The claim is about every history of transactions.", "anchors": ["stingraykit/collection/DictionaryKeysSet.h: TransactionalDictionaryKeysSet, DiffEnumerator", "stingraykit/collection/TransactionalDictionaryKeyValue.h: ReadonlyTransactionalDictionaryKeyValue"]}
{"id": "C101", "title": "Decimal arithmetic is exact", "statement": "Comparisons, sums, differences and products of Decimals agree with those of the fractions mantissa / 10^exponent.", "quantifier": "all pairs of Decimals with any exponents", "why_tests_cant": "All pairs of 64-bit mantissas and 16-bit exponents; the implementation computes with doubles, which fails only for some large values.", "anchors": ["stingraykit/Decimal.cpp: PowToExponent, operator ==, operator <, operator +=, operator *=", "stingraykit/Decimal.h: operator -"]}
{"id": "C102", "title": "Decimals as text round trip", "statement": "ToString gives a number in the usual notation (sign, digits, point, digits, no superfluous zeros after the point) that denotes the Decimal; the constructor from text reads every number in the usual notation as the number it denotes and refuses everything else; so what is printed is read back as the same number.", "quantifier": "all Decimals, all texts", "why_tests_cant": "All texts and all pairs of mantissa and exponent.", "anchors": ["stingraykit/Decimal.cpp: Decimal(string_view), Decimal::ToString, RemoveUnsignificantZeros, AddSignificantZeros"]}
{"id": "C103", "title": "Fixed-point numbers: exact sums, rounded products, roots and text", "statement": "With N binary places, sums and differences are exact, products are rounded down and quotients towards zero to the next multiple of 2^-N, conversions round down, the square root is the largest number whose square is not greater; ToString and FromString denote the number to three places and the nearest number below.", "quantifier": "all values, all N, all texts", "why_tests_cant": "All pairs of values and all numbers of places.", "anchors": ["stingraykit/fixed_point.h: fixed_point"]}
{"id": "C104", "title": "Ranges of numbers and times behave like sets", "statement": "Intersect gives exactly the common numbers and IsIntersecting tells whether there are any; Union is the smallest range that covers both and adds nothing if they meet; Clamp gives the nearest number in the range; an end before the start is refused. Contains agrees with this.", "quantifier": "all pairs of ranges, all numbers", "why_tests_cant": "All pairs of ranges, including empty, touching and nested ones.", "anchors": ["stingraykit/NumericRange.h: NumericRange", "stingraykit/time/TimeInterval.h: TimeInterval"]}
{"id": "C105", "title": "Comparers are consistent orders", "statement": "If the comparer of the items is an order, so are the comparers derived from it: Less, Greater, Equals and Cmp agree with each other, collections are compared lexicographically (a proper prefix first, equal only for the same length and equal items), objects by the first member that differs, null pointers and null optionals come first, objects of several types by the type first.", "quantifier": "all orders, all collections, all lists of members, all pairs and triples of objects", "why_tests_cant": "An order must be transitive for all triples of objects; sorted containers silently break otherwise.", "anchors": ["stingraykit/compare/comparers.h: CmpToLess, CmpToGreater, CmpToEquals, LessToCmp, LessToEquals, CmpComparerBase", "stingraykit/compare/CollectionComparer.h: CollectionComparer", "stingraykit/compare/MemberListComparer.h: MemberListCmp", "stingraykit/compare/Comparable.h: Comparable", "stingraykit/optional.h: operator <"]}
{"id": "C106", "title": "ActionTransaction undoes exactly what was done", "statement": "Over the life of a transaction, whatever is executed and whichever actions throw, the rollbacks of exactly the successful actions run, exactly once each and in reverse order; after Commit none runs; after Commit or Rollback every call is refused.", "quantifier": "all sequences of Execute, Commit and Rollback, all behaviours of the callbacks", "why_tests_cant": "All histories, with any subset of the callbacks throwing at any time.", "anchors": ["stingraykit/ActionTransaction.cpp: ActionTransaction"]}
{"id": "C107", "title": "UUIDs survive text", "statement": "FromString accepts exactly the texts of the form GetRepresentation (hexadecimal digits of either case for X) and gives the bytes written there; ToString gives such a text in lower case; so a UUID printed and read is the same. The order is that of the bytes; setting version and variant changes exactly those six bits.", "quantifier": "all texts, all UUIDs", "why_tests_cant": "All texts of any length and all 2^128 values.", "anchors": ["stingraykit/UUID.cpp: UUID::FromString, UUID::ToString, SetVersionAndVariant", "stingraykit/UUID.h: operator <"]}
{"id": "C108", "title": "Versions are ordered and survive text", "statement": "Versions are ordered by major, minor and build, without a build first, and equal exactly if all are; FromString accepts exactly two or three decimal numbers of 32 bits with points between them; ToString gives such a text, which is read as the same version.", "quantifier": "all versions, all texts", "why_tests_cant": "All texts and all triples of numbers.", "anchors": ["stingraykit/Version.cpp: Version::operator <, Version::ToString, Version::FromString"]}
{"id": "C109", "title": "Progress is a percentage that does not go back", "statement": "InPercents is the percentage rounded down, between 0 and 100, and 100 exactly at the end; an AggregateProgressReporter reports the percentage of the whole, never goes back within a part or from a part to the next, ends with 100, and cannot be made for actions beyond the last.", "quantifier": "all progress values, all parts of all wholes", "why_tests_cant": "All triples of index, size and count and all 64-bit values.", "anchors": ["stingraykit/ProgressValue.h: ProgressValue", "stingraykit/AggregateProgressReporter.h: AggregateProgressReporter"]}
{"id": "C110", "title": "Token pools run every cleanup once, outside their lock", "statement": "Whatever threads and cleanup functions do, a TokenPool or TokenMap holds exactly the tokens added and not taken by a later release; every token is destroyed at most once, and when no release is in progress exactly the tokens not in the pool have been destroyed; tokens are destroyed outside the lock, so cleanup functions may use the pool and there is no deadlock. After a release returns, none of the tokens it covers is alive.", "quantifier": "all numbers of threads, all schedules, all cleanup functions that call the pool", "why_tests_cant": "All interleavings of any number of threads with re-entrant cleanup functions.", "anchors": ["stingraykit/Token.h: TokenPool, TokenMap", "stingraykit/FunctionToken.h: FunctionToken"]}
{"id": "C111", "title": "StringFormat", "statement": "StringFormat succeeds exactly if the format consists of characters other than %, of %% and of places %i% or %i$w% for arguments that exist, and then gives these characters, a percent sign and the texts of the arguments, padded with zeros to the width, in this order; every other format is refused.", "quantifier": "all formats, all arguments", "why_tests_cant": "All texts are possible formats.", "anchors": ["stingraykit/string/StringFormat.h: StringFormat, ArgumentToString"]}
{"id": "C112", "title": "Serialized values are read back", "statement": "For every serializable type and every value of it, the calls that ObjectOStream::Serialize makes describe exactly one document, and ObjectIStream::Deserialize of that document gives the value back, whatever the object that is read into held before; different values are written differently.", "quantifier": "all types built from integers, booleans, strings, bytes, doubles, string-representable classes, optionals, pairs, vectors, sets, maps, variants, composites, pointers and factory objects, nested to any depth; all values; all previous contents of the target", "why_tests_cant": "The types nest without bound and the target of a read may hold anything.", "anchors": ["stingraykit/serialization/Serialization.h: ObjectOStream, ObjectIStream, TypeWriterImpl", "stingraykit/serialization/Serializer.h: Deserializer, OptionalDeserializationHelper", "stingraykit/serialization/Composite.h", "stingraykit/serialization/FloatString.cpp", "stingraykit/serialization/InjectionSerializer.h"]}
{"id": "C113", "title": "A document is read as what it says, or rejected", "statement": "Reading a document succeeds only if it has the form of the type: integers in range, pairs of two elements, a known alternative or class, no missing members except optional ones, binary data as hex= with two digits per byte; the properties of an object may come in any order and among others.", "quantifier": "all documents, all types, all previous contents of the target", "why_tests_cant": "Documents come from outside and may be anything.", "anchors": ["stingraykit/serialization/Serialization.h: ObjectIStream", "stingraykit/serialization/Serialization.cpp: UnpackBinaryEncoding, xdigit", "stingraykit/serialization/IntegerDeserializer.h: CheckedIntegerCaster"]}
{"id": "C114", "title": "Enumerable adaptors give exactly the right items", "statement": "Concat, Where, OfType, Cast, Transform, Skip, Take, Flatten and filtering wrappers over any enumerator that ends give, in order, exactly the items that the corresponding operation on lists gives, stay valid exactly as long as an item is left, and throw from Get and Next at the end; Diff of two ascending enumerables reports as removed exactly the items of the first without an equivalent in the second and as added those of the second without one in the first, in ascending order.", "quantifier": "all enumerators that end, adaptors nested to any depth, all predicates, functions, casts and orders", "why_tests_cant": "Sources are of any length and nested in each other; the items are pulled one at a time by an arbitrary caller.", "anchors": ["stingraykit/collection/EnumerableHelpers.h: Concat, Where, OfType, Cast, Transform, Skip, Take, Flatten, Diff", "stingraykit/collection/EnumerableWrapper.h: EnumeratorWrapper", "stingraykit/collection/EnumerableFromStlContainer.h"]}
{"id": "C115", "title": "Queries over an enumerable answer as over its items; an enumerable as a range", "statement": "Aggregate, All, Any, Contains, Count, IndexOf, ElementAt, First, Find, Last, Single, Clone, Reverse and SequenceEqual give what the same question about the list of items gives, for every enumerator that ends. A range over an enumerable: First stands at the first item, Next moves on by one and throws at the end, a copy stands at the same item, Last stands at the last item.", "quantifier": "all enumerators that end, all predicates and functions; all positions", "why_tests_cant": "Sources are of any length.", "anchors": ["stingraykit/collection/EnumerableHelpers.h: Aggregate, All, Any, Contains, Count, IndexOf, ElementAt, First, Last, Single, Clone, Reverse, SequenceEqual, EnumerableToRange"]}
{"id": "C116", "title": "AsyncByteStream behaves as the file it writes to", "statement": "Whatever is written, sought, synchronized and reconfigured, and however the background thread and the underlying stream (with partial writes) interleave with it: Tell, Seek and Write answer as for an ordinary file on which the accepted writes were made; Write accepts a first part of the bytes, none only if the buffer is full; when nothing is pending, and when the destructor is done, the underlying stream holds exactly the contents and length that the accepted writes make of an ordinary file; memory of a replaced buffer is never used; the stream fails only if the underlying one throws; the destructor comes to its end unless the underlying stream goes on writing nothing.", "quantifier": "all histories of calls, all interleavings with the thread, all partial writes and exceptions of the underlying stream, all buffer sizes", "why_tests_cant": "Merging of writes into queued operations depends on positions, free space and the progress of the thread; a wrong merge shows only under a particular interleaving.", "anchors": ["stingraykit/io/AsyncByteStream.h: StreamOpData", "stingraykit/io/AsyncByteStream.cpp: AsyncByteStream::Write, Seek, Tell, Reconfigure, ThreadFunc, ~AsyncByteStream"]}
{"id": "C117", "title": "AsyncByteStream: what Sync guarantees", "statement": "When Sync has returned, every byte of the underlying stream is one that the file has had at that place since Sync was called, and the stream is as long as the file was: nothing written before is missing. At every moment each byte of the underlying stream is one the file has had there at some time. (Full property: the underlying stream always has the contents of some moment of the history.)", "quantifier": "all histories of calls before and after Sync, all interleavings with the thread, all partial writes and exceptions", "why_tests_cant": "Whether bytes have reached the stream when Sync returns depends on the interleaving of user and thread, and a crash may come at any point.", "anchors": ["stingraykit/io/AsyncByteStream.cpp: AsyncByteStream::Sync, Write, ThreadFunc"]}
{"id": "C118", "title": "Single-byte encodings are those of the standards", "statement": "ToUtf8 of any byte string in CP1251 or ISO 8859-2 to -16 is the UTF-8 text of the characters that the Unicode mapping tables give its bytes, with the replacement character asked for in the place of bytes that have no character; distinct bytes give distinct characters and ASCII stays as it is.", "quantifier": "all byte strings, all 15 encodings, all replacement characters", "why_tests_cant": "One wrong entry in one of the tables is found only by a text that has that byte; texts are unbounded.", "anchors": ["stingraykit/locale/StringCodec.cpp: Unpack_CP1251, Unpack_ISO_8859_2 .. Unpack_ISO_8859_16, StringCodec::ToUtf8"]}
{"id": "C119", "title": "Sources of data deliver every byte once, in order, and tell the end last", "statement": "For every data source of the library (byte array, byte stream, pipe, mediator) and every stack of adaptors on it (intercepting, reactive, packetizing and depacketizing) and every consumer and cancellation token: what the consumer has taken followed by what the source still has is the stream; EndOfData is told at most once, last, and only when all was taken; reading to the end without cancellation delivers everything; packets have the size asked for; interceptors are shown exactly the bytes the consumer took.", "quantifier": "all streams, all consumers (any answers, exceptions), all moments of cancellation, all chunkings by streams and pipes, all compositions of adaptors", "why_tests_cant": "Losses happen only at particular combinations of partial acceptance, exception and cancellation, and compositions of adaptors are unbounded.", "anchors": ["stingraykit/io/IDataSource.h: ConsumeAll, InterceptingDataConsumer, InterceptingDataSource, ReactiveDataSource, EmptyDataSource", "stingraykit/io/DataPacketer.h: ConsumerPacketer, ConsumerDepacketer, DataPacketer, DataDepacketer", "stingraykit/io/BufferedDataMediator.h: BufferedDataMediator", "stingraykit/io/PipeDataSource.cpp: PipeDataSource::Read", "stingraykit/io/ByteStreamDataSource.h: ByteStreamDataSource::Read", "stingraykit/io/ByteArrayDataSource.h: ByteArrayDataSource::Read", "stingraykit/io/DataSourceReader.cpp: DataSourceReader::ReadToEnd", "stingraykit/io/ByteDataConsumer.cpp: ByteDataConsumer::Process"]}
{"id": "C120", "title": "Views of byte arrays show exactly their part", "statement": "A ByteArray or ByteData made from another with an offset (and a size) shows exactly that part of it or is refused with an exception, to any depth of nesting; a view never reaches outside of its vector; a write through one view is seen by exactly the views of the same place; append, RequireSize and clear act on all sharing views as documented by the vector; equality is equality of the bytes.", "quantifier": "all contents, all offsets and sizes of 64 bits, all nestings, all sharings", "why_tests_cant": "Offsets and sizes are 64-bit numbers and views nest to any depth; errors show only at particular combinations of limit, offset and nesting.", "anchors": ["stingraykit/collection/ByteData.h: BasicByteArray, BasicByteData"]}
{"id": "C121", "title": "Writers of a shared pipe take turns", "statement": "Concurrent Write calls on a SynchronizedPipe, and concurrent holders of a write guard of a circular buffer, exclude each other: the pipe below gets the data of the calls one after another, never mixed, each call whole if it returned; a call that is cancelled while waiting writes nothing; no wake-up is lost: when the right is free, every waiting call that was asleep has been woken, also when the writer failed with an exception.", "quantifier": "any number of threads and calls, all data, all interleavings, all moments of cancellation, timeouts, spurious wake-ups and exceptions", "why_tests_cant": "Mixing of data and lost wake-ups depend on the interleaving of threads and cannot be provoked reliably.", "anchors": ["stingraykit/io/SynchronizedPipe.h: SynchronizedPipe::Write", "stingraykit/io/SharedCircularBuffer.h: SharedWriteSynchronizer, WriteGuard"]}
{"id": "C122", "title": "SafeSingleton: one object, alive while anybody has it", "statement": "For all interleavings of calls of SafeSingleton::Instance in any number of threads, of releases of the returned pointers and of the static destructor: the constructor runs at most once and one object at most is made; a returned pointer points to a living object, the same for all; the object stays until the static destructor has run; it is deleted exactly once, when the destructor has run and all pointers are gone; after that, or after the constructor threw, every call returns null for ever; calls do not block each other except during the initialization.", "quantifier": "all interleavings of any number of calls, releases, the static destructor; constructor throwing or not", "why_tests_cant": "Depends on the interleaving of atomic operations during initialization and program exit.", "anchors": ["stingraykit/SafeSingleton.h: SafeSingleton::Instance, TryAddReference, RemoveReference, InstanceHolder"]}
{"id": "C123", "title": "Singleton and PhoenixSingleton: one object at a time", "statement": "Singleton::Instance gives the same object in every call until the end of the program, throws \"already destroyed\" after it, and \"could not be created\" for ever if the constructor threw in the first call; constructor and deletion happen at most once and a made object is deleted at exit. PhoenixSingleton: at most one object is alive at any moment, whatever calls and exit handlers interleave, every object is deleted by exactly one exit handler, the assertion there never fails, a call returns an object that is alive at that moment. AtomicInt::Store is one atomic write.", "quantifier": "all histories of operations (Singleton), all interleavings (PhoenixSingleton), all values other threads put into the cell (Store)", "why_tests_cant": "Depends on the order of initialization and destruction and on interleavings at program exit.", "anchors": ["stingraykit/Singleton.h: Singleton", "stingraykit/PhoenixSingleton.h: PhoenixSingleton", "stingraykit/thread/atomic/AtomicInt.h: Store"]}
{"id": "C124", "title": "BasicConditionVariable loses no signal", "statement": "The condition variable made of a counter and a semaphore behaves as one: whoever returns from Wait or TimedWait owns the mutex, alone; checking the condition and beginning to wait are atomic with respect to Signal and Broadcast; after a Signal one more waiting thread can return, after a Broadcast all threads that were waiting can; a signal given while nobody waits is forgotten.", "quantifier": "any number of threads, all interleavings of locking, waiting, timeouts, signals and broadcasts", "why_tests_cant": "Lost and stolen wake-ups depend on the interleaving of waiters and signallers.", "anchors": ["stingraykit/thread/BasicConditionVariable.h: Wait, TimedWait, Signal, Broadcast", "stingraykit/thread/posix/PosixSemaphore.cpp: Wait, TimedWait, Signal"]}
{"id": "C125", "title": "Constraints on thread operations follow the live objects", "statement": "On every thread the reporter complains about an operation exactly while a ThreadOperationConstrainer for it is alive on that thread, and the checker complains exactly while no ExclusiveThreadOperation for it is; objects on other threads do not matter, and destroying an object on a thread that did not create it does not go unnoticed.", "quantifier": "any number of threads, every history of creation and destruction, every set of operations", "why_tests_cant": "Restoring a saved word is right or wrong depending on the order in which objects of several threads are destroyed.", "anchors": ["stingraykit/thread/ThreadOperation.cpp: ThreadOperationConstrainer, ThreadOperationReporter, ExclusiveThreadOperation, ExclusiveThreadOperationChecker"]}
{"id": "C126", "title": "String views compare and search as strings do", "statement": "compare and the operators order views lexicographically; substr, remove_prefix, remove_suffix and at give the part asked for or throw; starts_with and ends_with decide prefix and suffix; find, rfind and the find_*_of family give the first (last) position from (up to) the one given that matches, or npos, and never read outside of the view.", "quantifier": "every view, pattern, set of characters and position", "why_tests_cant": "Wrong answers are confined to empty views or sets, positions beyond the end and huge sizes.", "anchors": ["stingraykit/string/string_view.h: basic_string_view", "stingraykit/string/string_view.cpp: StringViewCheckRange"]}
{"id": "C127", "title": "Enum classes: values, names and back", "statement": "An enum class maps every enumerator to the value the compiler gives it and to its name; a value is written as its (first) name, a value made of declared flags as those names with | between them, any other value as an unsigned number; a text of declared names with bars and blanks is the union of their values, anything else is refused; text and value round-trip.", "quantifier": "every list of enumerators and initialisers, every value and every text", "why_tests_cant": "The maps are built from the text of the macro, and both directions depend on the set of flags and on the placement of blanks.", "anchors": ["stingraykit/EnumToString.cpp: EnumToStringMapBase::Impl", "stingraykit/EnumToString.h: EnumValueHolder", "stingraykit/toolkit.h: STINGRAYKIT_ENUM_VALUES"]}
{"id": "C128", "title": "unique_ptr: one owner, one deletion", "statement": "A unique_ptr points to an object nobody else has and that is not deleted; moving, releasing, resetting and swapping neither lose nor duplicate an object; every object given to a unique_ptr and not released is deleted exactly once.", "quantifier": "every history of moves, resets, releases and swaps, with destructors that use other pointers, of any number of pointers", "why_tests_cant": "The claim is about all interleavings of destructors with the operations that run them.", "anchors": ["stingraykit/unique_ptr.h: unique_ptr", "stingraykit/CheckedDelete.h: CheckedDelete"]}
{"id": "C129", "title": "Tokens made of tokens", "statement": "Multi tokens and tokens attached to shared objects own what they were made of: in every history exactly what the user can no longer reach is destroyed, once; a multi token lets its tokens go in the order asked for (as added or reversed); an object lets the tokens attached to it go in reverse order of attachment and before the object itself; a multi token builder works once.", "quantifier": "every history of making, copying and dropping tokens, any depth of nesting and sharing, any number of tokens", "why_tests_cant": "Destruction order and ownership depend on the whole graph of tokens; tests look at one graph.", "anchors": ["stingraykit/MultiToken.h: MultiToken, MultiTokenBuilderBase", "stingraykit/Token.h: AttachToken, TokenAttacher"]}
{"id": "C130", "title": "Object pool garbage collection", "statement": "CollectGarbage never destroys an object the program can still reach; it destroys every pool object to which the pool has the only reference; calling it as often as the pool has objects destroys everything the program cannot reach, also objects that hold one another.", "quantifier": "every history of making, copying, dropping and pooling objects with any (acyclic) ownership among them, any number of collections", "why_tests_cant": "Tests look at a few objects in one order; ownership graphs and orders in the pool are unbounded.", "anchors": ["stingraykit/ObjectPool.h: ObjectPool, CollectGarbage", "stingraykit/shared_ptr.h: release_if_unique"]}
{"id": "C131", "title": "Asynchronous calls deliver their own result", "statement": "The future returned by a function made with MakeAsyncFunction shows exactly the outcome of this call: its value or exception, and an error if the task was cancelled or dropped; nothing before the task ended; it is ready once the call has returned and its task has ended, so no reader waits for ever.", "quantifier": "every interleaving of calls, tasks run or dropped by the executor, and readers of the futures on any threads", "why_tests_cant": "Depends on every race between the caller that still fetches the future and the executor that already runs or drops the task.", "anchors": ["stingraykit/function/AsyncFunction.h: AsyncFunction, FuncWrapper", "stingraykit/future.h: promise"]}
{"id": "C132", "title": "Bind is substitution", "statement": "Calling Bind(f, e1, ..., en) calls f with the values of the expressions: placeholder number i becomes the argument i of the call with its category (a const rvalue as const lvalue), stored values are given as const references, nested Bind expressions are called with the same arguments; surplus arguments are ignored; the declared parameters are those of the placeholders.", "quantifier": "every functor, every argument list with placeholders in any order, repeated or left out, nested to any depth, every argument list and category at the call", "why_tests_cant": "Each shape of the argument list is another instantiation of the templates; tests try a few.", "anchors": ["stingraykit/function/bind.h", "stingraykit/function/FunctorInvoker.h"]}
{"id": "C133", "title": "Tuples", "statement": "Get by index and by type with occurrence number gives the right item; ConcatTuples, ReverseTuple and FilterTuple give the concatenation, the reverse and the filtered tuple.", "quantifier": "every number of tuples of every length (also empty), every order of types, every predicate on types", "why_tests_cant": "Each shape of tuple is another instantiation of the templates; tests try a few.", "anchors": ["stingraykit/Tuple.h"]}
{"id": "C134", "title": "Type list algorithms and dispatch by tag", "statement": "The compile-time list algorithms (length, item, index of an occurrence, append, merge, filter, fold, transform, reverse, minimum, maximum, sort) give what their names say for every list, and an invoker by tag calls the entry registered with this tag, or the fallback exactly if there is none, after a number of comparisons logarithmic in the size of the registry.", "quantifier": "every list, predicate and strict weak order, every registry with different tags in any order, every tag", "why_tests_cant": "Templates are checked only on the lists they are instantiated with; a registry of another size or order is another program.", "anchors": ["stingraykit/metaprogramming/TypeList.h", "stingraykit/GenericEntityFactory.h"]}
{"id": "C135", "title": "Commands reach the right handler with the right arguments", "statement": "A command line written as words and arguments (special characters escaped, lists in brackets, \"none\" for missing optionals) calls the first registered handler that accepts it with exactly these arguments, and no other; handlers are called only for commands beginning with their words; after its token is destroyed a handler is not called; the completions offered are those that lead to a valid word or candidate.", "quantifier": "every list of words and types nested to any depth, every value, every command text, every history of registrations", "why_tests_cant": "Tests try a few commands; quoting, nesting and partial input interact for every text.", "anchors": ["stingraykit/CmdLine.h", "stingraykit/CmdLine.cpp"]}
{"id": "C136", "title": "Sizes in human-readable form mean what they say", "statement": "The text made for a size is a number with an optional letter k…E whose value is within the allowed error of the size and is read back exactly; no larger unit would do; with no error allowed the size itself is read back. Reading accepts exactly numbers and numbers with a letter and multiplies by the power of 1024.", "quantifier": "every size and allowed error, every text", "why_tests_cant": "Rounding, units and overflow over the whole 64-bit range.", "anchors": ["stingraykit/string/HumanReadableSize.cpp:ToHumanReadableSize", "stingraykit/string/HumanReadableSize.cpp:FromHumanReadableSize"]}
{"id": "C137", "title": "Reading line by line gives the lines of the text", "statement": "Reading lines until the end gives the text cut at line ends (LF, CR LF, CR not followed by LF), for any mixture of line ends; lines written with LF or CR LF are read back; peeking shows the next character without reading it.", "quantifier": "every text", "why_tests_cant": "Line ends may occur in any order and at the end of the text.", "anchors": ["stingraykit/string/StringReader.h:StringReader"]}
{"id": "C138", "title": "Rectangles behave like sets of points", "statement": "A rectangle is valid exactly if it contains a point; the intersection contains exactly the common points; moving keeps the size and moves every point; `Intersects` tells whether two valid rectangles have a common point; sizes and rectangles are ordered member by member.", "quantifier": "every pair of rectangles, every offset", "why_tests_cant": "Boundary cases (touching, nested, empty) over all integers.", "anchors": ["stingraykit/Rect.h:BasicRect", "stingraykit/Size.h:Size", "stingraykit/Size.cpp"]}
{"id": "C139", "title": "Times are read from text as they are written", "statement": "A date with or without time of day, written day first, in the long or in the short ISO form, and a clock time alone, is read as that moment (an offset shifts it); \"now\" with an offset is read relative to the present; what the library writes in these forms is read back; text of no known form is refused.", "quantifier": "every date, time of day, offset and every text", "why_tests_cant": "All fields, all forms and all malformed texts cannot be enumerated.", "anchors": ["stingraykit/time/Time.cpp:Time::FromString", "stingraykit/time/Time.cpp:TimeDuration::FromString"]}
{"id": "C140", "title": "Language codes", "statement": "A code made of three letters is the same for upper and lower case, prints as the three letters in upper case and is read back; codes are ordered as their texts; two-letter codes are read for Russian and English.", "quantifier": "every text and every 32-bit code", "why_tests_cant": "All byte values, also those above 127 and 0, must be treated alike.", "anchors": ["stingraykit/locale/LangCode.h:LangCode", "stingraykit/locale/LangCode.cpp"]}
{"id": "C141", "title": "Equality of localized strings is equality of texts", "statement": "Two localized strings are equal exactly if they have the same characters, whatever their encodings; equality is symmetric and agrees with the order.", "quantifier": "every pair of byte strings in every supported encoding", "why_tests_cant": "Encodings and invalid byte sequences cannot be enumerated.", "anchors": ["stingraykit/locale/LocaleString.cpp:LocaleString::operator ==", "stingraykit/locale/LocaleString.h:LocaleString"]}
{"id": "C142", "title": "Translated strings are values", "statement": "Copies of a translated string are independent values whatever is done with builders and other strings; a builder gives the translations it was made from with those added; selection gives the first language available, else any; formatting and joining work language by language.", "quantifier": "every sequence of operations on strings and builders, every dictionary, every argument list", "why_tests_cant": "Dictionaries are shared between copies and builders; any interleaving of copying, adding and getting must not be observable.", "anchors": ["stingraykit/string/TranslatedString.h:TranslatedString", "stingraykit/string/TranslatedString.cpp", "stingraykit/string/TranslatedStringUtils.h:TranslatedStringFormat"]}
{"id": "C143", "title": "A scoped holder cleans up once", "statement": "Every handle a scoped holder is given is released to the caller once or passed to the cleanup once, at the latest by the destructor; holders made from one shared holder are one holder.", "quantifier": "every sequence of Set, Get, Release, Clear and destruction, every outcome of each cleanup call", "why_tests_cant": "A leak or a double cleanup depends on the whole history of calls and on which cleanups throw.", "anchors": ["stingraykit/Holder.h:ScopedHolder", "stingraykit/Holder.h:SharedHolder"]}
{"id": "C144", "title": "Single-bit operations", "statement": "Setting, resetting, flipping and testing a bit of an integer affect and report that bit only; reversing a byte puts bit i at 7 - i and is its own inverse.", "quantifier": "every integer width, every bit index below it, every value", "why_tests_cant": "All widths and values.", "anchors": ["stingraykit/BitwiseOperations.h:TestBit", "stingraykit/BitwiseOperations.h:SetBit", "stingraykit/BitwiseOperations.h:ReverseBits"]}
{"id": "C145", "title": "Hidden duplicates of log messages are accounted for", "statement": "A duplicate-hiding logger writes each message differing from the one before it, and accounts for the hidden duplicates by their number: never more than were sent, and all of them by the time another message comes.", "quantifier": "every sequence of messages from every place, every hiding policy and every clock", "why_tests_cant": "The state of each place depends on the whole sequence of messages there.", "anchors": ["stingraykit/log/LoggerStream.h:DuplicatingLogsFilter", "stingraykit/log/LoggerStream.cpp:LoggerStream::DoLog"]}
{"id": "C146", "title": "Settings of named loggers and delivery to sinks", "statement": "A logger has the settings last made for its name, no matter whether they were made before or after it; a message is written exactly if its level is not below the logger's; a message is delivered to every sink registered when it is sent, once and in order, and to no other.", "quantifier": "every sequence of creations, destructions and settings; every interleaving of Log calls with adding and removing sinks", "why_tests_cant": "Orders of creation and settings, and schedules of logging threads.", "anchors": ["stingraykit/log/Logger.cpp:NamedLoggerRegistry", "stingraykit/log/Logger.cpp:LoggerImpl", "stingraykit/log/Logger.h:NamedLogger"]}
{"id": "C147", "title": "The expression for a range of numbers matches exactly that range", "statement": "GenerateNumericRangeRegex(start, end) gives, for every range of 64-bit numbers, a regular expression that matches exactly the decimal texts (without leading zeros) of the numbers from start to end; alternatives for longer texts come first; the group captures exactly if asked for; start > end is refused.", "quantifier": "every pair of 64-bit numbers and every text", "why_tests_cant": "2^128 ranges; the recursion treats the borders of every power of ten and of the type specially.", "anchors": ["stingraykit/string/RegexUtils.cpp:GenerateNumericRangeRegex", "stingraykit/string/RegexUtils.cpp:GenerateNumericRangeRegexStageOne", "stingraykit/string/RegexUtils.cpp:GenerateNumericRangeRegexStageTwo"]}
{"id": "C148", "title": "Threads of the POSIX engine are set up before the constructor returns and are over when the destructor returns", "statement": "Whatever threads begin, signal and destroy threads in whatever order: a thread constructor that returned has seen its thread running with its data set up; a thread that could not set itself up never yields an object (the program stops); the destructor has cancelled the token, waited for everybody sending signals to the thread, and returns only after the thread ended; no backtrace signal is ever sent to a joined handle; a thread destroying its own object stops the program; and while every thread ends before the thread that began it, the CPU time of all ended threads is fully accounted to living threads and parentless ones (a thread that outlives its parent loses it).", "quantifier": "every number of threads and every schedule of constructors, destructors, thread functions and backtrace requests", "why_tests_cant": "Depends on the interleaving of the new thread with its creator, with signal senders and with the destructor.", "anchors": ["stingraykit/thread/posix/PosixThreadEngine.cpp:PosixThread", "stingraykit/thread/posix/PosixThreadEngine.cpp:ThreadDataStorage", "stingraykit/thread/posix/PosixThreadEngine.cpp:RequestBacktrace"]}
{"id": "C149", "title": "Deadlines are exact and sleeps are never too short", "statement": "timespec_add gives, for every interval but the least one, exactly start plus interval in a form POSIX accepts; sums and differences of timespecs are exact; however many signals interrupt it, Thread::Sleep returns only after at least the time asked for, and signals do not lengthen it; negative durations make Sleep wait practically for ever, and the least interval overflows.", "quantifier": "every time and interval (64 bits); every sequence of interruptions", "why_tests_cant": "2^64 intervals with carries in both directions; arbitrary signal patterns.", "anchors": ["stingraykit/time/posix/utils.h:timespec_add", "stingraykit/time/posix/utils.h:timespec_sub", "stingraykit/thread/posix/PosixThreadEngine.cpp:SleepMicroseconds", "stingraykit/thread/Thread.h:Sleep"]}
{"id": "C150", "title": "Mapping tables use the first fitting entry, and the questions tell exactly when they throw", "statement": "For every table of a value mapper: Map and Unmap give the (preferred) value of the other side of the first entry that stands for the argument, or of the default; HasMapping/HasBackMapping are true exactly if Map/Unmap do not throw; if the destinations do not overlap and stand for the value they give, Unmap(Map(v)) is v for single-valued sources (and the preferred source of the entry otherwise); it is not so for overlapping destinations or ranges with an outside map-back value.", "quantifier": "every table and every value", "why_tests_cant": "The table is a template parameter with unbounded length; tests cover the tables of the library only.", "anchors": ["stingraykit/Mapper.h:BaseValueMapper", "stingraykit/Mapper.h:Mapper", "stingraykit/Mapper.h:Mappings"]}
{"id": "C151", "title": "A priority setter brings back the scheduling parameters", "statement": "SetCurrentThreadPriority returns the parameters in effect before and sets the policy asked for and the priority cut to the range of the policy; whatever and however often something is set through a PrioritySetter, Reset and the destructor bring back the parameters of before, provided the system allows the return and refuses a Set at once or not at all; otherwise they may be lost.", "quantifier": "every valid kernel state, every sequence of Set and Reset calls and every answer of the system", "why_tests_cant": "Needs permission failures at arbitrary points and all priorities.", "anchors": ["stingraykit/thread/Thread.cpp:PrioritySetter", "stingraykit/thread/posix/PosixThreadEngine.cpp:SetCurrentThreadPriority", "stingraykit/thread/posix/PosixThreadEngine.cpp:GetCurrentThreadPriority"]}
{"id": "C152", "title": "The asynchronous profiler reports every long session in time, and only such", "statement": "In every interleaving of beginning and ending sessions with the profiler thread: a session is reported only after it lasted for the time limit, again only after another such time, and never after it ended; when a session is due the thread is awake or its wait is over; a look reports all due sessions in order, each once; and after the last session the destructor is not held up by a timed wait.", "quantifier": "every number of sessions, every schedule, every course of the clock", "why_tests_cant": "Depends on timing and on wake-ups racing with sessions.", "anchors": ["stingraykit/diagnostics/AsyncProfiler.cpp:AsyncProfiler", "stingraykit/diagnostics/AsyncProfiler.cpp:ThreadFunc", "stingraykit/diagnostics/AsyncProfiler.cpp:AddSession", "stingraykit/diagnostics/AsyncProfiler.cpp:RemoveSession"]}
{"id": "C153", "title": "Running mean, deviation and average are those of the values since the last reset", "statement": "For every history of pushed values and resets: Mean::Get is the arithmetic mean and Deviation::Get the mean squared distance from it of the values pushed since the last reset (zero if none), in exact arithmetic; the stages pass every value on; with integer types the running mean differs from the truncated mean but stays within the range of the values, and the deviation is never negative; Average::Get is the sum divided by the number.", "quantifier": "every sequence of values and resets", "why_tests_cant": "Unbounded histories; the incremental formula has to agree with the definition for all of them.", "anchors": ["stingraykit/Accumulators.h:Mean", "stingraykit/Accumulators.h:Deviation", "stingraykit/Average.h:Average"]}
{"id": "C154", "title": "A timed cancellation token obeys every timeout of the chain", "statement": "For every chain of timed tokens around a token: IsTimedOut exactly when some timeout asked for is over; GetTimeout is the time to the earliest end; Sleep never goes beyond the duration, any timeout or a cancellation, returns true only after the whole duration without cancellation and false only with the token cancelled or timed out; without a duration it always returns; a handler can be registered exactly while the token is valid; Sleep(0) on a timed out token returns true.", "quantifier": "every chain, all timeouts, all moments, every cancellation time and lateness", "why_tests_cant": "Arbitrary nesting and real time.", "anchors": ["stingraykit/thread/TimedCancellationToken.cpp:TimedCancellationToken", "stingraykit/thread/TimedCancellationToken.cpp:Sleep", "stingraykit/time/RemainingTime.h:RemainingTime"]}
{"id": "C155", "title": "IntegerBuilder concatenates bit fields", "statement": "For every sequence of fields of unsigned types, each of positive size below the width of the result (and at most that of its type): the result is the concatenation of the low bits of the fields, first field most significant, cut to the width of the result; if they fit together every field can be read back. Signed fields overwrite earlier bits, and a field as wide as a 32 or 64 bit result is undefined behaviour.", "quantifier": "every sequence of fields, all four widths of result and fields", "why_tests_cant": "Unbounded sequences and 2^64 values per field.", "anchors": ["stingraykit/IntegerBuilder.h:IntegerBuilder", "stingraykit/IntegerBuilder.h:Append", "stingraykit/IntegerBuilder.h:ResetMostSignificantBits"]}
{"id": "C156", "title": "Transliterated search finds what the table allows, and stays in bounds", "statement": "For every typed string without a zero byte and every text: TranslitMatchSubstr is true exactly if the text contains something the typed string spells (piece by piece, equal bytes or entries of the table) that starts at least as many bytes before its end as the typed string is long; it finds every literal occurrence and reads nothing out of bounds. A longer typed string such as sch does not find its letter, k does not find its letter, and zero bytes make it read out of bounds.", "quantifier": "every typed string and every text", "why_tests_cant": "All strings; greedy matching has to agree with the declarative meaning.", "anchors": ["stingraykit/locale/Translit.cpp:TranslitMatchSubstr", "stingraykit/locale/Translit.cpp:TranslitMatchChar"]}
{"id": "C157", "title": "A factory context creates the class registered first under a name in the nearest context", "statement": "For every chain of contexts and every history of registrations: Create(name) makes the class registered first under the name in the nearest context that has it; Create<T> returns it only if it is a T; GetClassName is the first effective name in the nearest context; Register throws exactly for a name used in the same context and then changes nothing; Create(GetClassName(T)) makes a T in a context without base, but not always with one.", "quantifier": "every chain and every history of registrations", "why_tests_cant": "Unbounded registries; order of registration and shadowing.", "anchors": ["stingraykit/factory/Factory.cpp:FactoryContext", "stingraykit/factory/Factory.cpp:Register", "stingraykit/factory/Factory.cpp:GetClassName", "stingraykit/factory/Factory.cpp:Create", "stingraykit/factory/Factory.h:FactoryContext"]}
{"id": "C158", "title": "A collection seen through a cast is the cast collection", "statement": "For every list, set and dictionary seen through ListCaster, SetCaster or DictionaryCaster: enumeration, count, Get, Find and ReverseFind are those of the cast elements; with a faithful back caster Contains and IndexOf agree with them; for every history of changes, whoever observes the view (whenever it connects) is told a sequence of changes that makes sense and leads to the cast contents (for sets: if the cast keeps equivalence); converted diffs of transactional collections, put into effect on the cast contents, give the cast of the result.", "quantifier": "every collection, cast, history and moment of connection", "why_tests_cant": "Unbounded histories and all element types; relates two streams of notifications.", "anchors": ["stingraykit/collection/ListCaster.h:ListCaster", "stingraykit/collection/SetCaster.h:SetCaster", "stingraykit/collection/DictionaryCaster.h:DictionaryCaster"]}
{"id": "C159", "title": "What is pulled out of a signal is what its populator sends", "statement": "For every signal whose populator sends any sequence of values on connection: GetVectorFromSignal yields exactly that sequence (with collection operations: exactly the elements sent as Added, every other message going to the exception handler), GetValuesFromSignal of a set the sorted set of them, GetValueFromSignal the first one (each further one goes to the exception handler) and HasValueInSignal whether there is one; SignalToFuture gives the first value sent over the whole history, GetFuture never throws however often it is called, and a wrapper destroyed before a value breaks the promise.", "quantifier": "every populator, every sequence of values and every history of sends and calls", "why_tests_cant": "Unbounded sequences and histories.", "anchors": ["stingraykit/signal/ValueFromSignalObtainer.h:GetVectorFromSignal", "stingraykit/signal/ValueFromSignalObtainer.h:ValueFromSignalObtainer", "stingraykit/signal/SignalToFuture.h:SignalToFutureWrapper"]}
{"id": "C160", "title": "Training a PPM dictionary loses no counts", "statement": "For every data given to PpmDictionaryBuilder::Process and every memory limit: if it does not throw, each sequence of the shortest context size followed by each symbol is counted exactly as often as it occurs in the data (added up over the contexts ending in it), whatever has been compactified; each symbol is recorded once, in the first level whose contexts fit; Compactify(t) folds exactly the contexts counted at most t times; counters and order of contexts are exact, memory as counted is within the limits after Process and Finish; training always terminates and its outcome does not depend on how std::sort orders equal counts; stored contexts are found in the finished model.", "quantifier": "every data, memory limits, level configuration and sort order of equal counts", "why_tests_cant": "Unbounded data; conservation over any sequence of compactifications.", "anchors": ["stingraykit/compression/ppm/PpmDictionaryBuilder.h:PpmDictionaryBuilder", "stingraykit/compression/ppm/PpmModel.h:ModelBuilder", "stingraykit/compression/ppm/PpmModel.h:Compactificator"]}
{"id": "C161", "title": "FOR_EACH and range-based for visit exactly the right items", "statement": "For every enumerable, cast, WHERE condition and body (that may continue, break or throw): FOR_EACH runs the body exactly for the items that can be cast and satisfy the condition, in order, until it breaks or throws, and always ends; after break the enumerator has moved past the item. Range-based for over IterableEnumerable runs the body for every item in order, until break or exception, never fails by itself, and after break the enumerator stays at the item.", "quantifier": "every sequence of items, cast, condition, body and state of the world", "why_tests_cant": "All bodies and sequences; the macro is four nested loops with shared flags.", "anchors": ["stingraykit/collection/ForEach.h:FOR_EACH", "stingraykit/collection/ForEach.h:ForEachEnumeratorCaster", "stingraykit/collection/StlEnumeratorAdapter.h:StlEnumeratorAdapter"]}
{"id": "C162", "title": "Checkpoint profiles and bandwidth reports add up", "statement": "For every history of calls: CheckpointProfiler::Stop returns exactly the checkpoints since the last Start, in order, each with its name or number and the time since the previous one, these times adding up; checkpoints while stopped are ignored; AutoCheckpointProfiler logs exact running times; the bytes of BandwidthReporter reports and those pending add up to all bytes processed, each report tells the right total and speed.", "quantifier": "every history of calls and times", "why_tests_cant": "Unbounded histories.", "anchors": ["stingraykit/diagnostics/CheckpointProfiler.cpp:CheckpointProfiler::Stop", "stingraykit/BandwidthReporter.h:BandwidthReporter"]}
{"id": "C163", "title": "Reports of profile sessions add up", "statement": "For every tree of nested profile sessions: when the session without a parent is destroyed, is enabled and took longer than its threshold, the report has one line for it and one for every chain of ids of sessions below it, in the order of the ids; each line has the sum of the times of all sessions with that chain of ids and its share in the time of the sessions it is a child of. Nothing is divided by zero, and with children that do not overlap no share is above 100 percent. Otherwise there is no report.", "quantifier": "every tree of sessions, ids and times", "why_tests_cant": "All trees of sessions; merging is recursive over maps.", "anchors": ["stingraykit/diagnostics/ProfileSession.h:ProfileSession", "stingraykit/diagnostics/ProfileSession.h:SessionInfo::ToString"]}
{"id": "C164", "title": "Case insensitive comparison of strings", "statement": "CaseInsensitiveLess is a strict weak order that compares strings in lower case as a dictionary does, and two strings are equivalent in it exactly if CaseInsensitiveEquals says so, which is equality of the strings in lower case.", "quantifier": "every pair and triple of strings", "why_tests_cant": "All strings; ordered containers rely on transitivity.", "anchors": ["stingraykit/string/Comparers.h:CaseInsensitiveLess", "stingraykit/string/Comparers.h:CaseInsensitiveEquals"]}
{"id": "C165", "title": "A bytes owner keeps its bytes alive", "statement": "After every history of creating, copying, slicing, moving, assigning and destroying bytes owners, an owner that was not moved from shows exactly the bytes it was made for: the given ones, the part asked for of another owner, or all of the one assigned; they stay readable whatever happens to other owners, also to those it came from; an index beyond the end and a part that is not there give an exception and change nothing; a write changes one byte and is seen through the owners that share it; storage is freed when the last owner goes.", "quantifier": "every history of calls", "why_tests_cant": "Use after free depends on the history of owners.", "anchors": ["stingraykit/collection/BytesOwner.h:BasicBytesOwner", "stingraykit/collection/ByteData.h:BasicByteData"]}
{"id": "C166", "title": "Reading and writing everything, whatever the pieces", "statement": "For every stream that reads or writes any positive part of what it is asked for: ReadAll fills the buffer with the next bytes of the stream in order until it is full or the stream is at its end, leaves the rest of the buffer alone and takes nothing else from the stream; CheckedReadAll returns only with a full buffer and otherwise tells how many bytes there were; ReadToEnd returns all the bytes, whatever the initial size, and never returns a part, also if the token is cancelled meanwhile; WriteAll writes a prefix of the data, all of it unless cancelled; CheckedWriteAll returns only if all is written.", "quantifier": "every stream, every way it splits the data, every moment of cancellation or time-out, every buffer size", "why_tests_cant": "The splits and the moment of cancellation are chosen by the stream and other threads.", "anchors": ["stingraykit/io/IInputByteStream.h:ReadAll", "stingraykit/io/IInputByteStream.h:CheckedReadAll", "stingraykit/io/IInputByteStream.h:ReadToEnd", "stingraykit/io/IOutputByteStream.h:WriteAll", "stingraykit/io/IOutputByteStream.h:CheckedWriteAll"]}
{"id": "C167", "title": "The mutex profiler reports the holds that took too long", "statement": "With profiling of mutexes on, Unlock prints a line exactly if the thread has held the mutex at least as long as the threshold and ShutUp was not called before, and the line tells for how long it was held; what other threads try meanwhile makes no difference.", "quantifier": "every history of locks, attempts, unlocks and waits of any number of threads", "why_tests_cant": "The times come from the schedule.", "anchors": ["stingraykit/thread/LockProfiler.h:MutexProfilerWrapper"]}
{"id": "C168", "title": "The location of a thread names the calls it is in", "statement": "For every history of guards in a thread, GetLocation names the external and internal calls that have begun and not ended, oldest first, separated by arrows, after the side the last one is on; without calls, and without thread data, it says so; a guard made before there was thread data is left out; destroying a guard never takes from an empty stack.", "quantifier": "every history of guards", "why_tests_cant": "Depends on the history.", "anchors": ["stingraykit/diagnostics/ExternalAPIGuard.h:ExternalAPIGuardStack", "stingraykit/thread/Thread.h:ExternalAPIGuards"]}
{"id": "C169", "title": "StringParse reads back what StringFormat has written", "statement": "For every format whose places have, between them, text that begins with neither a digit nor a sign, and all integers of any types in range, StringParse with the same format accepts what StringFormat has written, assigns every argument that has a place, in the order of the places, and every one gets its number back.", "quantifier": "every format of that form, every list of integers of the eight types", "why_tests_cant": "Every format and number.", "anchors": ["stingraykit/string/StringFormat.h:StringFormat", "stingraykit/string/StringParse.h:StringParse"]}
{"id": "C170", "title": "Copies of a function share one functor, which is destroyed once", "statement": "For every history of making, copying, moving, assigning, calling and destroying functions (and function_storage): a call runs the functor the function stands for, in the state left by all calls before, through whatever copy; a function moved from throws when called and moving to itself keeps the functor; a functor is not destroyed while a function stands for it and exactly once as soon as none does.", "quantifier": "every history of operations on any number of functions, every functor with any state", "why_tests_cant": "Depends on the history.", "anchors": ["stingraykit/function/function.h:function", "stingraykit/function/function.h:function_storage", "stingraykit/self_counter.h:self_count_ptr"]}
{"id": "C171", "title": "A DataPipe gives what its stages give one after another", "statement": "For all stages with state and every sequence of inputs: what the consumer gets from Process, input by input, is what the stages give when each is run over everything the stage before it has given, and the states of the stages end the same; Reset resets every stage, EndOfData tells every stage once, in order, and then the caller.", "quantifier": "all stages, any number of them, every sequence of inputs", "why_tests_cant": "Every stage function and input.", "anchors": ["stingraykit/DataPipe.h:DataPipe", "stingraykit/DataPipe.h:DataPipeStage"]}
{"id": "C172", "title": "Visitors and dispatch on variants call the handler of the actual types", "statement": "An object is visited by the handler of its own Visitable class if the visitor has one, else by the handler of the base, which throws by default; what a handler gets is of the class it is for. Multidispatch calls the visitor once with the values of all variants in order. CollectionOpVariant tells the operation and values it was made of, and its other accessors throw.", "quantifier": "every class hierarchy and visitor, every number of variants, types and values", "why_tests_cant": "Every hierarchy.", "anchors": ["stingraykit/IVisitor.h:ApplyVisitor", "stingraykit/IVisitor.h:Visitable", "stingraykit/VariantMultidispatch.h:Multidispatch", "stingraykit/collection/CollectionOpVariant.h:CollectionOpVariant"]}
{"id": "C173", "title": "Expressions on a SyncValue are atomic", "statement": "For every schedule of any number of threads: the value and the variables of the threads are what the full expressions on the SyncValue give one after another in some order that agrees with every thread's program; at most one thread is in the middle of an expression, and it can always go on.", "quantifier": "every program of every number of threads, every schedule", "why_tests_cant": "Depends on the schedule.", "anchors": ["stingraykit/thread/SyncValue.h:SyncValue"]}
{"id": "C174", "title": "EnumerableBuilder gives the elements that were added", "statement": "In every history of builders, their copies, enumerables and enumerators: an enumerable has exactly the elements that were in the builder when it was given and every enumerator goes through them in order; at the end Get and Next throw.", "quantifier": "every history", "why_tests_cant": "Depends on the history.", "anchors": ["stingraykit/collection/EnumerableBuilder.h:EnumerableBuilder", "stingraykit/collection/EnumerableFromStlContainer.h:StlIteratorsEnumerable"]}
{"id": "C175", "title": "Checks on integers are exact", "statement": "STINGRAYKIT_CHECK_INTEGER_OVERFLOW throws exactly if the sum does not fit the type of the value, for every pair of types it compiles for and all values, and its own computation never overflows. STINGRAYKIT_CHECK_RANGE with two or three arguments passes exactly if the index is inside the range, whatever the types.", "quantifier": "all pairs and triples of integer types, all values", "why_tests_cant": "All values of the types and their mixtures of signs.", "anchors": ["stingraykit/exception.h:CheckIntegerOverflow", "stingraykit/exception.h:STINGRAYKIT_CHECK_RANGE"]}
{"id": "C176", "title": "Thread statistics are those of the kernel", "statement": "The file of a thread is read whole, whatever pieces read() gives, or the call fails; and from a line as the kernel writes it the fields are exactly those of the line, whatever the name of the thread and the numbers; a text that is something else gives 41 values of their types or a failure.", "quantifier": "every sizes of the pieces, every name, all numbers, every text", "why_tests_cant": "Every behaviour of read and every line.", "anchors": ["stingraykit/thread/posix/PosixThreadStats.h:Stat"]}
{"id": "C177", "title": "Strings are stored whole in arrays of characters", "statement": "For every size and every string: an assignment to an array of characters stores the string and terminators up to the end of the array if it fits with a terminator, and otherwise throws and leaves the array as it was; no byte outside the array is read or written.", "quantifier": "all sizes, all strings", "why_tests_cant": "Every size and string.", "anchors": ["stingraykit/CharArrayProxy.h:CharArrayProxy", "stingraykit/CharArrayProxy.h:StringToCharArrayHelper"]}
{"id": "C178", "title": "Atomics, sequences and the spinlock", "statement": "On every integer type fetch_add and fetch_sub store the wrapped result and return the value before; sequence numbers given to any threads are distinct; Store writes exactly once; for every schedule at most one thread is inside a spinlock, and a free one is taken by the next attempt.", "quantifier": "all types and values, every schedule", "why_tests_cant": "Values at the limits of the type and schedules.", "anchors": ["stingraykit/thread/atomic.h:atomic", "stingraykit/thread/atomic/AtomicInt.h:AtomicIntImpl", "stingraykit/thread/atomic/Spinlock.h:Spinlock", "stingraykit/IntegerSequenceGenerator.h:IntegerSequenceGenerator"]}
{"id": "C179", "title": "A reference counter is deleted once and tells the last owner", "statement": "In every history of copying and destroying handles and taking and giving back references, by any threads: the counters are deleted exactly once, after the last handle is gone; exactly one caller is told that it gave back the last reference, and only then; get is the number of references, and release_if_unique succeeds only for one.", "quantifier": "every interleaved history", "why_tests_cant": "Depends on the interleaving.", "anchors": ["stingraykit/ref_count.h:basic_ref_count"]}
{"id": "C180", "title": "Semaphores admit no more than they have units", "statement": "In every history of waits, timed waits, locks and signals of any threads: those that succeeded are at most the initial units plus those given; a wait that fails takes nothing; with a unit a waiting thread can go on, without one it cannot; with locks only, no more threads than the initial count are inside; a wait without a limit ends only with a unit.", "quantifier": "every history of any number of threads", "why_tests_cant": "Depends on the schedule.", "anchors": ["stingraykit/thread/posix/PosixSemaphore.cpp:PosixSemaphore", "stingraykit/thread/GenericSemaphoreLock.h:GenericSemaphoreLock"]}
{"id": "C181", "title": "AllocatorValueHolder frees each value once with its own allocator", "statement": "In every history of creating, moving, swapping, releasing and destroying holders: every value made is in exactly one place - a holder, given to the caller, or destroyed and deallocated once, by the allocator that made it; an exception of its constructor leaks nothing; moving assigns the value.", "quantifier": "every history, any number of holders and allocators", "why_tests_cant": "Depends on the history.", "anchors": ["stingraykit/collection/CollectionHelpers.h:AllocatorValueHolder"]}
{"id": "C182", "title": "Storage has the size and alignment of the type", "statement": "alignment_of gives the alignment of every type, whatever its size; StorageFor has exactly the size and the alignment of the type.", "quantifier": "all sizes and alignments a type can have", "why_tests_cant": "Every pair of size and alignment.", "anchors": ["stingraykit/aligned_storage.h:alignment_of", "stingraykit/aligned_storage.h:StorageFor"]}
{"id": "C183", "title": "A type erasure applies each concept to its own object", "statement": "For every list of concepts: a call applies the concept called to the object of the erasure as the class it was made of, with the argument given; Free destroys the object once. Erasures that are only moved refer to live objects of their own, in every history.", "quantifier": "all lists of concepts, every history of erasures", "why_tests_cant": "Depends on the list and on the history.", "anchors": ["stingraykit/TypeErasure.h:TypeErasure", "stingraykit/TypeErasure.h:TypeErasureImpl"]}
{"id": "C184", "title": "Thread-local variables belong to one thread and die with it", "statement": "In every history of threads that start, use a thread-local variable and end: a thread always gets the same value and no other thread gets it; a running thread gets a live value; the values of a thread that is gone are destroyed once, those of a running thread are alive; no key is left over.", "quantifier": "every history of any number of threads", "why_tests_cant": "Depends on the order of thread ends, destructors and the end of the program.", "anchors": ["stingraykit/thread/posix/ThreadLocal.h:STINGRAYKIT_DECLARE_THREAD_LOCAL"]}
{"id": "C185", "title": "A string stream holds what was inserted", "statement": "After every history of inserting values and clearing, str() is the texts of the values inserted since the last clear, one after another, whatever their number and lengths: integers in decimal notation, booleans as true and false, characters and strings as they are. empty() says whether that is nothing.", "quantifier": "every history, all values of all integer types, all strings", "why_tests_cant": "All values and lengths; the inline buffer is left at 256 characters.", "anchors": ["stingraykit/string/string_stream.h:basic_string_ostream", "stingraykit/string/string_stream.cpp:InsertIntegral"]}
{"id": "C186", "title": "Scope guards run once, at the end of their scope, innermost first", "statement": "For every program with blocks, exceptions and return: whatever way a scope is left, the function of each of its guards that was not cancelled runs then, exactly once, in the reverse order of construction; that of a cancelled guard never. Guards do not change how the program goes, also if their functions throw a std::exception.", "quantifier": "all programs of blocks, guards, cancellations, exceptions and returns", "why_tests_cant": "Every way through every nesting of scopes.", "anchors": ["stingraykit/ScopeExit.h:ScopeExitInvoker", "stingraykit/ScopeExit.h:STINGRAYKIT_SCOPE_EXIT", "stingraykit/log/Logger.h:STINGRAYKIT_TRY"]}
{"id": "C187", "title": "Arrays hold their values, and are ordered like words in a dictionary", "statement": "In every history of constructing, copying, assigning, filling, swapping (also with itself) and setting elements of arrays of any length: the arrays hold the values they should, copies are independent, at throws for an index outside and changes nothing. Arrays are equal if all elements are; the first element that is not equivalent decides the order, which is a strict weak order if that of the elements is; the other operators fit it.", "quantifier": "all lengths, histories, values and element orders", "why_tests_cant": "Every length, every history and every order of the elements.", "anchors": ["stingraykit/collection/array.h:array"]}
{"id": "C188", "title": "Scopes with MutexLock and MutexUnlock leave the mutex as they found it", "statement": "Any number of threads use one mutex in any nesting of scopes with MutexLock and MutexUnlock, and leave the scopes in any way: what is done in a scope that has locked is never between another thread's getting the mutex and its giving it back; after a scope the mutex is held as deep as before it; destructors never end the program; MutexUnlock throws, changing nothing, exactly in a thread that has not locked; a thread waits only for another one that has the mutex; and in a scope with MutexUnlock the mutex is free for the others.", "quantifier": "all numbers of threads, nestings of scopes and interleavings", "why_tests_cant": "Every schedule and every nesting of scopes.", "anchors": ["stingraykit/thread/GenericMutexLock.h:GenericMutexLock", "stingraykit/thread/GenericMutexLock.h:GenericMutexUnlock", "stingraykit/thread/posix/PosixThreadEngine.h:PosixMutex"]}
{"id": "C189", "title": "A cancellable function is not called after Release, and is itself before", "statement": "Any number of threads call copies of a function made by MakeCancellableFunction, also from within it, and release the token: after Release has returned the function does not begin in any thread, and no thread but the releasing one is in it; a call of a void function then does nothing, any other throws. Before Release every call calls the function and gives its value or its exception. Two threads are never in the function at once; calls and Release wait only for another thread in it.", "quantifier": "all numbers of threads, interleavings and nestings of calls, results and releases", "why_tests_cant": "Every schedule.", "anchors": ["stingraykit/function/CancellableFunction.h:CancellableFunction", "stingraykit/thread/TaskLifeToken.h:LocalExecutionGuard"]}
{"id": "C190", "title": "Random numbers are in range, fair, and do not cycle early", "statement": "From every seed, 2^32 calls of Next give every 32-bit number exactly once before the sequence starts again. Next(maxValue) is below maxValue, and over these calls every number below it comes equally often, up to one. Next(minValue, maxValue) is at least minValue and below maxValue, or minValue if they are equal.", "quantifier": "all seeds, all bounds, all numbers of calls", "why_tests_cant": "A whole period is 2^32 calls, for each of 2^32 seeds and bounds.", "anchors": ["stingraykit/Random.h:Random", "stingraykit/Random.cpp:Random"]}
{"id": "C191", "title": "Fuzzy equality compares objects of one class by their own rule", "statement": "FuzzyEquals of objects, or of pointers of any depth to them: null pointers equal only each other, pointers are compared by what they point to, an object equals itself, objects of different classes are different, and objects of one class are compared by its DoFuzzyEquals, wherever their parts lie in memory. It is an equivalence if every DoFuzzyEquals is symmetric and transitive.", "quantifier": "all objects and memory layouts, all depths of pointers, all rules of classes", "why_tests_cant": "The layout of a class is up to the compiler and the hierarchy.", "anchors": ["stingraykit/compare/IFuzzyEquatable.h:FuzzyEquatable", "stingraykit/compare/IFuzzyEquatable.h:FuzzyEquals", "stingraykit/compare/comparers.h:EqualsComparerBase"]}
{"id": "C192", "title": "Objects with a finalizer are deleted once, by the executor, when nobody refers to them", "statement": "A shared object made with a Finalizer as deleter is deleted only by a task of the executor, never in the thread that drops the last pointer; it is deleted at most once, not while a user or an object still alive holds it; and when the executor has done its tasks, all objects no user can reach are gone, however they hold each other.", "quantifier": "all objects holding earlier ones, all orders of copies, drops and tasks", "why_tests_cant": "Deletions trigger further deletions, in any order.", "anchors": ["stingraykit/Finalizer.h:Finalizer", "stingraykit/thread/ThreadlessTaskExecutor.cpp:ClearTasks"]}
{"id": "C193", "title": "Scopes of interruption points nest", "statement": "EnableInterruptionPoints and DisableInterruptionPoints turn interruption points on or off for a scope: each point can interrupt exactly if the innermost scope around it has them on, a masked function is not interrupted, and however the scope is left (end, exception, interruption), whatever signals arrive meanwhile, the state is as before it.", "quantifier": "all nestings of scopes, exceptions, pending interruptions and signal handlers", "why_tests_cant": "Interruptions and signals may come at any point of any nesting.", "anchors": ["stingraykit/thread/Thread.cpp:EnableInterruptionPoints", "stingraykit/thread/DisableInterruptionPoints.h:ExecutionContextModifier", "stingraykit/thread/IThreadEngine.h:TLSData"]}
{"id": "C194", "title": "Sleep sleeps as long as asked", "statement": "Thread::Sleep and SleepMicroseconds return only when the whole time has passed, however often signals break the sleep off, late by no more than the last call of the system; they throw only for errors of the system other than EINTR, and what they ask of the system is valid for every time.", "quantifier": "all durations, all sequences of interruptions by signals", "why_tests_cant": "Signals may arrive at any time and any number of times.", "anchors": ["stingraykit/thread/posix/PosixThreadEngine.cpp:SleepMicroseconds", "stingraykit/thread/posix/PosixThreadEngine.h:Sleep"]}
{"id": "C195", "title": "Mutex locking waits patiently and reports without recursion", "statement": "Mutex::Lock returns only when the mutex has been got and never gives up while it is owned by others; it reports each three seconds with the time waited so far; making a report, which locks other mutexes, never causes further reports; it throws only errors the system answered, and always if the answer for the mutex is an error.", "quantifier": "all answers of the system to all lock operations, also those within reports", "why_tests_cant": "Contention of any duration on any of the mutexes a report takes.", "anchors": ["stingraykit/thread/posix/PosixThreadEngine.cpp:DoLock", "stingraykit/thread/posix/PosixThreadEngine.h:PosixMutex"]}
{"id": "C196", "title": "Errors of the system can be told from exceptions", "statement": "The text of a SystemException names the error by its macro, or by its number; different errors have different texts whatever strerror says; the code of the exception is the error its text tells; and from what STINGRAYKIT_THROW_SYSTEM_EXCEPTION throws it can be told which error it was.", "quantifier": "all error numbers of 32 bits, all texts of strerror_r, all messages and paths", "why_tests_cant": "There are too many numbers, and the texts of the system are not known.", "anchors": ["stingraykit/SystemException.cpp:ErrnoToStr", "stingraykit/SystemException.cpp:GetErrorMessage", "stingraykit/SystemException.h:STINGRAYKIT_THROW_SYSTEM_EXCEPTION"]}
{"id": "C197", "title": "Names of types are split into namespace and class", "statement": "TypeInfo::GetNamespaceName and GetClassName split the name of a type before the arguments of its template: together they make up the name, the class name of a class in a namespace is its own name with all arguments, whatever those are, and its namespace all that is before; a name that cannot be demangled is shown as it is.", "quantifier": "all names, all arguments of templates", "why_tests_cant": "Names may nest other names at any depth.", "anchors": ["stingraykit/TypeInfo.cpp:GetNamespaceName", "stingraykit/TypeInfo.cpp:GetClassName", "stingraykit/toolkit.cpp:Demangle"]}
{"id": "C198", "title": "Log messages have an order and a text", "statement": "LoggerMessage: operator < is a strict weak order, by the name of the logger (messages of no logger first), then level, time, name of the thread and text; two messages are equal exactly if all of these are; ToString shows all of these, so that they can be told from it; the name of the thread is never empty.", "quantifier": "all messages, names, levels, times", "why_tests_cant": "Sets of messages need the order for all of them.", "anchors": ["stingraykit/log/LoggerMessage.cpp:LoggerMessage::operator <", "stingraykit/log/LoggerMessage.cpp:LoggerMessage::ToString"]}
