# Formal model of GSGroup/stingraykit in Lean 4

## Layout

* `lean/Verif/<Area>/Model.lean`  – the model: total computable functions; every definition cites the lines of `/repo` it models.
* `lean/Verif/<Area>/Spec.lean` (or a `Spec` section at the top of `Props.lean`) – the small independent specification.
* `lean/Verif/<Area>/Lemmas.lean` – helper lemmas and invariants.
* `lean/Verif/<Area>/Props.lean`  – the property theorems (names in `MANIFEST.json`) and non-vacuity examples.

A theorem whose name ends in `_partial` proves less than the English property; the comment above it says what is missing.
A theorem whose name ends in `_violated` proves, with a concrete witness, that the code as written does **not** have the
full property.

## Trusted base

* Lean 4.33.0's kernel; axioms at most `propext`, `Classical.choice`, `Quot.sound`. No axioms of our own, no compiled evaluation.
* The faithfulness of the hand-written model, i.e. our reading of the cited lines. The C++ is not executed here.
* Conventions of the model common to all areas:
  * `STINGRAYKIT_CHECK` failures and thrown exceptions are explicit outcomes (`none` / `Except`), never silently totalised.
  * `size_t`/`u64` counters are `Nat` unless the property is about wrap-around; where the code could underflow, the model makes
    that an explicit outcome or a proof obligation.
  * `std::map`/`std::set`/`std::multimap` are modelled as their sorted sequence of entries (or as finite association lists with unique keys);
    allocation failure, copy-constructor exceptions, iterator invalidation and destruction order are not modelled unless stated.
  * Mutex-protected methods are atomic steps of an interleaving transition system; code outside the lock is a separate step.
    Condition variables are modelled with arbitrary spurious wake-ups. The C++ memory model below the level of mutexes, real time,
    and fairness of the OS scheduler are not modelled.

## Properties: what is modelled and how it is proved

| id | model | proof |
|----|-------|-------|
| C01–C05 | `QueueCache` as (dictionary, stamp→key queue, size, capacity, counter), `step : State → Op → State × Out` | invariant (dictionary/queue bijection, sorted stamps, size = sum) by induction over histories; refinement to a list of entries ordered by last set/use |
| C06 | `TwoQueueCache` as three `QueueCache` models with the eviction wiring | refinement to the union map with exact report of losses; induction over histories |
| C07 | `BithreadCircularBuffer` offsets, flag and storage array | refinement to a byte list; induction over histories |
| C08, C09 | `CircularBufferBase` offsets, flag, storage, locked size | refinement to a byte list for Push/Pop/Release; Clear: the code leaves the wrap flag (refuted by a witness, partial theorem for contiguous states) |
| C10 | consumer/source/holder as an interleaving transition system whose actions are the locked sections | invariant on the log of accepted/delivered bytes |
| C11, C12 | `PacketBuffer` on top of the buffer model with the padding and packet-size queue | refinement to a packet queue; C12 refuted by a witness with a partial theorem |
| C13, C14 | `PagedBuffer` pages and offsets; the unlocked consumer call as two steps | refinement to (log, cursor); C14 refuted by an interleaving witness |
| C15, C16 | `DataAligner`, `TakingConsumer`, `SkippingConsumer` as state machines over arbitrary consumers (oracle) | induction over input chunks |
| C47 | copies of the containers of C17/C18 | refinement for the default comparer; self-assignment and comparer loss refuted by witnesses |
| C17, C18, C19, C20, C21, C22, C23 | container models (list + index, sorted vector, inline/dynamic split, two maps, counters, pointer heap, iterator positions) | refinement to lists / finite maps, induction over histories |
| C48 | the models of C21 with callbacks that may throw | same invariant; throwing removal callback refuted by a witness |
| C24–C29 | transactional set/dictionary/list with pending added/removed sets, merge and diff enumerators, copy-on-write heap | refinement to plain finite sets/maps/lists; replay of diffs; interleaving model for snapshots |
| C30 | bit getter/setter loops over bytes | arithmetic refinement to bit lists |
| C31, C32 | `Utf8IteratorRange` decoding over byte lists | round-trip by case analysis on ranges; acceptance set refuted by witnesses, partial theorem |
| C49–C53 | `StringCodec` unpack/pack functions and loops, `Utf8Substring`, ICU-less `Utf8ToLower`; table-driven 8-bit code pages other than CP866 not modelled | arithmetic on bytes, induction over the text; UTF-16 surrogates refuted by a witness |
| C33, C34, C54 | `BigUnsignedInteger` on lists of blocks of any width, all operators and conversions | value homomorphism by induction on blocks; comparison refuted by witnesses |
| C35, C55 | integer helpers of math.h, rounding loops of math.cpp | number theory; error bound of the rounding loop by induction; signed alignment and rounding to nearest refuted by witnesses |
| C36, C37 | stream wrappers over a byte-array stream | refinement to (content, position) |
| C56, C57 | MemoryByteStream, ChunkedMemoryByteStream (Stream/Mem, Stream/Chunked) | refinement to (content, position); 2 GiB seeks and cross-chunk writes refuted by witnesses |
| C58 | ReadLine, PipeReader, BufferedPipe (Stream/Line) | loop invariants over the remaining bytes, token and short-read oracles; uniqueness of the line split |
| C38 | `BithreadPipe` as interleaving transition system (Thread/Pipe) | invariant linking the state to a specification automaton over the observed events |
| C39, C40 | `CancellationToken::Impl` as interleaving transition system with a thread-local program counter per thread | inductive invariant; C40 refuted by a reachable wedged state |
| C59, C60, C61 | `PosixConditionVariable::Wait` with a token (Thread/CondWait), `JoiningCancellationToken` (Thread/Joining; Thread/Joined: repeated waits and unregistration), `Barrier` (Thread/Barrier) as transition systems | inductive invariants and a termination measure; C60, C61 refuted by reachable states |
| C41 | `TaskLifeTokenImpl` as transition system (recursive mutex owner, alive flag) | inductive invariant |
| C42, C62 | `ThreadTaskExecutor` (Thread/Executor), `ThreadlessTaskExecutor` (Thread/Threadless) as transition systems | inductive invariants over execution logs; progress by a measure |
| C43, C63 | `Timer` (Timer/Model): clock, adding/removing threads, worker, as a transition system | inductive invariant with a specification automaton of the deadlines per task; progress by a measure; C63 refuted by a reachable state |
| C64, C65, C66, C67 | thread-safe `signal` with synchronous handlers, connections with the life token of Thread/Life, `ObservableValue` (Signal/Model), as a transition system with a stack per thread | inductive invariants (recursive mutex = number of holding frames; token = number of guards; connections; emissions); for C66 an invariant of the histories under the condition that handlers do not set the value, refuted by a concrete run without it; for C67 progress of the owner by a measure if the signal is raised under its lock, refuted otherwise by a state that no step of other threads leaves |
| C68 | `Compress/Coder`: both registers as 32-bit numbers, the loops bit by bit, the bits as a list, the decoder on an infinite sequence of bits | interval invariant relating the registers of the coder to the code of the decoder, induction over the parts; the violations by computation on concrete parts |
| C69 | `Compress/Ppm`: levels with contexts, prediction and decoding as in the code, construction of contexts from counts | each level predicts the part in which the decoder finds the symbol; induction over data; C68 |
| C70 | `Compress/BitBuf`: ring buffers over bit positions, histories of operations, consumer as the numbers of bytes it takes | ring invariant (position of the i-th bit), simulation by a queue; `Overrun`: concrete data in chunks, checked by the kernel |
| C71 | `Time/Calendar`: `gmtime64_r` and `timegm64` with their loops; `Time/Spec`: the calendar as the function with the day after each day | loop invariants over cycles, years and months; uniqueness of the calendar by induction in both directions |
| C72, C73, C74 | `Time/Calendar`, `Time/Convert`: fields as 16-bit, conversions with explicit widths, durations in microseconds | C71 and truncating division; violations by concrete times |
| C75, C76 | `Str/Ints`, `Str/Hex`: texts as lists of characters, integer types as their limits | induction over the text with the range check as invariant |
| C77, C78 | `Str/Split`: the split range as a state machine, `std::string::find` as scan, `Join`, `ReplaceAll`, `Strip`, `StringRef` | specification by leftmost cuts (`IsSplit`), invariants over the position |
| C79 | `Str/Edit`: the two rows of `EditDistance` | rows are the Levenshtein recursion, which is minimal over edit sequences |
| C80 | `Str/Aho`: trie with next and fail links, breadth first `Build`, `Search` | every node is a word; fail links are longest proper suffixes; induction over the queue |
| C81 | `Str/Parse`: tokens of the format, the loop over the tokens | induction over the places of the format |
| C82 | `Holder/Variant`: type tag and storage of every variable, element constructors that end normally, with a std::exception or with another exception | refinement to a map from variables to values, induction over the history; witnesses for self-assignment and foreign exceptions |
| C83 | `Holder/Optional`: flag and storage of every variable | refinement as for C82 |
| C84 | `Holder/Any`: type tag and union | refinement as for C82, witnesses for self-assignment and throwing assignment |
| C85 | `Holder/Shared`: counters of one control block, threads inside drop and lock | transition system, inductive invariant |
| C86 | `Holder/SelfCount`: counters of all objects, pointer variables | transition system, inductive invariant; witness for destructors |
| C87 | `Range/Model`: every range class as functions on its states; `Range/Spec`: what it means to be a range over a list (states represent positions) | one theorem per adaptor: if the argument obeys the law, so does the result, over the list the adaptor is for; compositions follow; witnesses for the defects |
| C88 | the loops of the algorithms over an abstract lawful range | induction over the remaining elements, compared with functions on lists |
| C89 | `GetPosition`, `GetSize`, `Move` with `size_t` arithmetic | law `Access` preserved by the adaptors; witnesses for `Reverse` |
| C90 | `Time/Text`: ToIso8601 through the Aho–Corasick matcher of C80, FromIso8601 through StringParse of C79 | reading: theorem for every text of numerals (induction-free, from the theorem about StringParse); round trip from C72; witnesses before 1970 |
| C91 | the callback for the hits of the matcher, with its position | the hits are sorted and apart if no run is too long; induction over the hits against the inductive relation `Replaced` |
| C92 | constructor with conversion to 16 bits, ToString, FromString | numerals through StringParse; witnesses for wrap-around |
| C93 | the loops over years and months with 16-bit counters, the regex splitting, the parsers of units | loop invariants: first day of the month reached plus days left is constant; months of the calendar of C71; witnesses |
| C94 | the two loops over the format | formats as lists of pieces; induction over the pieces; witnesses |
| C95 | `Coll/Cow`: heap of containers, holders, collections and enumerators; weak pointers expire when no live object owns the holder | simulation relation between the heap and plain values, kept by every call; witness with a predicate that takes enumerators |
| C96 | `Coll/Kinds`: each method as a function of the elements in iteration order; std::remove_if with its moves | positions by case analysis; remove_if by a loop invariant (kept, hole, rest); dictionaries refine an association list |
| C97 | multi containers with lower and upper bound | split of the sorted entries in before, at and after a key; refinement of a list in order of addition; witnesses for ReverseFind |
| C98 | `Coll/Observable`: a call is a sequence of elementary changes, each followed by the reports; observers may call back (bounded depth) | generic invariant: the replay of each log is related to the contents; per class every elementary change is matched by a sensible report |
| C99 | `Coll/Derived`: the views as functions of the reports of the dictionary (C98) | the log of the view is a prefix-closed part of the replay; a report says exactly what happens to the key; induction over the reports |
| C100 | `FindNext` of the converted diff with its checks, last entry for a key | the enumeration drops exactly the pairs removed/added of one key; composed with the diffs of C25-C27 over all histories |
| C101 | `Num/Decimal`: mantissa and exponent, rounding to doubles, undefined behaviour as `none` | scaling is exact up to 2^53; equations between fractions without division |
| C102 | `Decimal.toText`, `Decimal.fromText` on the texts of C75 | usual notation as a relation `Reads`; both directions through the digits before and after the point |
| C103 | `Num/Fixed`: raw values of 32 bits, the loop of the root, text | Euclidean division; loop invariant "largest root with the bits so far"; `Reads` of C102 |
| C104 | `Num/Interval`: pairs of integers | sets of integers, linear arithmetic |
| C105 | `Util/Compare`: comparers as functions into the integers, collections as lists, members as a list of comparers | orders as a structure `IsOrder`; induction over both collections, over the members |
| C106 | `Util/Transaction`: state of the transaction and the calls made; an oracle decides which calls throw | induction over the operations |
| C107 | `Util/Uuid`: the loops over the format | format and text related by the inductive `Lays`; bytes through C76 |
| C108 | `Util/Version`: comparer of C105, `stringParse` of C81, numbers of C75 | case analysis; the texts matched by the two formats are disjoint |
| C109 | `Util/Progress`: 64-bit arithmetic with overflow as `none`, unsigned modulo 2^64 | Euclidean division |
| C110 | `Token/Pool`: transition system with a stack of frames for each thread, cleanup functions push frames | invariant: the top frame of exactly the holder is inside the lock, frames below are not; tokens are counted |
| C111 | `Str/Format`: the loop over the format with an iteration bound | pieces of a format and what they stand for as inductive relations; both directions by induction |
| C112 | `Ser/Doc`, `Ser/Model`: a universe of serializable types, the events of `ObjectOStream`, reading by `ObjectIStream` into an old value | `Ser/Spec`: the document that events describe as a stack machine; mutual induction on types, alternatives, members and classes; witnesses for the false parts |
| C113 | the same reader; `UnpackBinaryEncoding`, `CheckedIntegerCaster` | exact characterisations of the accepted documents per clause; witnesses for the false parts |
| C114 | `Enum/Model`: enumerators as state machines, the adaptors as machines over machines | `Yields A s xs`: what a caller can see; one induction on `Yields` per adaptor; Diff through a merge relation |
| C115 | query loops and `EnumerableToRange` over any machine | each loop equals the list function, by induction on `Yields`; positions of the range |
| C116 | `Async/Model`: users and thread as one transition system over queue, ring buffers with memory, and disk; an ordinary file beside it | invariant `Inv`: pending operations carried out on the disk give the file; layout of operations in the buffers; stop request is last; work measure |
| C117 | the same system | `Stages`: every stage of the pending work from Sync on has only bytes the file has had; preserved by each `Effect`; witness for overtaking |
| C118 | `Text/Pages`: the tables copied from the code by a script; `Text/PagesSpec`: Unicode mappings as runs | every byte of every table by kernel evaluation over the whole domain, lifted to all strings by induction; injectivity from disjointness of runs |
| C119 | `Pipeline`: a consumer with its token is an arbitrary state machine over an opaque world; a source is a function of the consumer; adaptors are functions on consumers and sources | the contract of a source says that every statement about the consumer and the rest of the stream that the consumer keeps is kept by `Read`; each source meets it, each adaptor preserves it; instances of the statement give the log theorems; witnesses for the losses |
| C120 | `Bytes`: a heap of vectors, views as (vector, offset, limit) with `size_t` arithmetic modulo 2^64; references as (position, size) | parts by list lemmas, nesting by induction over the chain of constructions, sharing per operation for all pairs of views; kernel-evaluated witnesses |
| C121 | `Thread/Turn`: calls as a list of phases, the flag, the output of the pipe below; steps between releases of the mutex | invariant over all interleavings: one writer iff the flag is down, sleepers only while the flag is down, output = concatenation of the written parts in the order of turns |
| C122 | `Single/Safe`: counter, pointer, once flag, calls as a list of phases, one atomic access per step | invariant: counter = owners + static holder, counted implies alive, one deleter at most; stability of "gone" by induction over further runs |
| C123 | `Single/Plain` (Singleton as a sequential machine, `Store` as a loop over the contents seen), `Single/Phoenix` (steps = unprotected load, bodies under the spinlock) | first call decides (three phases of a history); induction over the exchanges; invariant: one pending handler iff there is an object |
| C124 | `Thread/SemCond`: counter, semaphore, user mutex, threads as a list of phases | invariant: semaphore + counter = counted or blocked threads + timeouts, mutex = its owners; stability of "enough for all" over runs without new waits |
| C125 | `Thread/Operation`: thread-local word, live objects with the saved word, destruction of any of them by any thread | the word is the union over the live objects, by induction over nested histories; witnesses for the others |
| C126 | `Str/View`: a view is the list of its characters; all operations of `basic_string_view`; reads outside are an outcome | specifications by occurrence and extremality, induction over the loops; witnesses |
| C127 | `EnumStr/*`: initialisers, the text of the macro, the two maps, both conversions over 32-bit words | induction over lists; bitwise extensionality for flags; grammar of pieces between bars; witnesses |
| C128 | `Holder/Unique`: pointer variables, raw pointers of the user, `reset` as two steps with the destructor between | counting invariant over histories; witnesses |
| C129 | `Token/Compose`: tokens and control blocks as reference counted nodes, destruction as a work list | counting invariant (references = count), reachability, forest induction for the order |
| C130 | `Holder/ObjectPool` on top of the reference counted graph of `Token/Compose` | loop invariant of the collection, fixed point argument on the acyclic graph; witness |
| C131 | `Thread/AsyncCall` on top of `Thread/Future`: the caller and the task both hold the promise | invariant over histories relating each cell to the operations on its call; witness |
| C134 | `Meta/TypeList`: the recursive templates as recursive functions, balanced tree of the sorted registry, dispatch by comparison | induction on lists; tree in order = sorted list, depth by halving |
| C132 | `Meta/Bind`: stored kinds and bound parameters, numbering from the end, selection, nested calls | mutual induction on expressions against substitution; witnesses |
| C133 | `Meta/Tuple`: tuple = list of typed values; index computations of concatenation, reversal, filter | induction; every tuple-like object agrees with a list |
| C135 | `Cmd/CmdLine`: readers for nested types, words, registry by key, completion; position = text left | induction on types and lists (rendering then reading), histories of registrations; witnesses |
| C136 | `Str/HumanSize`: u64 arithmetic modulo 2^64, the loop over units, parsing; the float product is a parameter | division lemmas, induction on the unit; witnesses |
| C137 | `Str/Reader`: text and position, ReadLine loop | inductive relation "lines of a text", induction on it |
| C138 | `Util/Rect`: coordinates as integers | point sets, linear arithmetic; witnesses |
| C139 | `Time/Scan`: sscanf directives as a function on texts, the chain of forms, broken-down time | lemmas per directive, composition; witnesses |
| C140 | `Locale/LangCode`: bytes, code as number | arithmetic on bytes; witnesses |
| C141 | `Text/LocaleStr`: operators over the comparison of C50 | from the exact comparison theorem; witnesses |
| C142 | `Locale/Translated`: heap of shared dictionaries, strings and builders as references, machine of operations | refinement to a machine of values (simulation relation), induction on the operations |
| C143 | `Holder/Scoped`: holder state, cleanup calls with outcome, references to shared holders | count of handles as invariant over runs; witnesses |
| C144 | `Bits/Bitwise`: operations on `BitVec w`, the reversal table of nibbles | bitwise extensionality for all widths; each bit of the byte |
| C145 | `Log/Dedup`: counter per place, filter as map from places | potential (told + pending) as invariant by induction over messages; witnesses |
| C146 | `Log/Registry`: registry machine of settings and loggers; sinks with threads inside `Log` holding a snapshot | induction over runs; witnesses |
| C147 | `Regex/Numeric`: both stages on texts, with all checks; `Regex/Spec`: what an expression matches | induction on the depth for stage two, on the rounds for stage one, by quotient and remainder; no check fails |
| C148 | `Thread/Posix`: any number of threads, a step per lock or system call of constructor, destructor, thread function, backtrace request | invariant on every thread by itself; books of CPU time by sums over all threads; violations by schedule |
| C149 | `Time/Timespec`: checked 64-bit arithmetic; `nanosleep` as oracle | arithmetic; induction over interruptions |
| C150 | `Util/Mapper`: tables as lists of pairs of sides | induction over the table; the chosen entry is unique |
| C151 | `Thread/Priority`: kernel state, two fallible calls, the setter | invariant: the setter keeps the first parameters |
| C152 | `Diag/AsyncProfiler`: a step per critical section, clock, wait states | invariant: the list is ordered by time, a wait ends with the first |
| C153 | `Math/Accum`: the stages over any arithmetic; rationals and integers | invariant: mean times count is the sum; shift of the centre |
| C154 | `Token/Timed`: chains of tokens, a clock, oracle for late wake-ups | induction over the chain: the effective deadline is the least one |
| C155 | `Bits/Builder`: shifts with promotion and undefined behaviour | induction over the fields |
| C156 | `Locale/Translit`: the table as bytes, both loops | soundness and completeness: the table is unambiguous |
| C157 | `Util/Factory`: two registries per context, chain of contexts | induction over the history |
| C158 | `Coll/Caster`: views over the observable and transactional collections | simulation: each report followed by the copy is followed by the cast copy; reuse of C94-C97 and C26-C28 |
| C159 | `Signal/Obtain`: the slots of the obtainers over the sequence the populator sends; the future wrapper as a transition system | induction over the sequence sent; invariant over the history |
| C160 | `Compress/Train`: builders of the levels, compactificator with its sorted entries, dictionary builder | invariant (counters, order, entries = totals) kept by every fold; weights conserved by induction; termination by a measure; extensionality of levels for independence of the sort |
| C161 | `Enum/ForEach`: a semantics of `for` with break/continue/exceptions, the four loops of the macro, the adapters | induction over the items, the inner loops computed symbolically |
| C162 | `Diag/Checkpoint`: profiler and bandwidth reporter as state machines | induction over histories |
| C163 | `Diag/Session`: trees of sessions, merging of maps, the report | induction over the trees: the merge adds the times at every path; the report lists the paths in order |
| C164 | `Str/CaseCompare`: `tolower` with its precondition, `lexicographical_compare`, `equal` | induction over both strings |
| C165 | `Bytes/Owner`: heap of blocks, owners with pointer and reference, freeing on the last release | invariant over histories: sound owners point into live storage they hold, live storage is held |
| C166 | `Stream/All`: loops of ReadAll, ReadToEnd, WriteAll over any stream and token | loop invariants: buffer begins with the bytes taken from the source |
| C167 | `Diag/LockProf`: recursive mutex with the profiler, waits | steps of others leave the hold alone; two counterexamples |
| C168 | `Diag/ApiGuards`: stack of entries, guards with and without a stack | invariant: stack = attached guards alive, for nested guards |
| C169 | `Str/Format`, `Str/Parse`, `Str/Ints` (C21, C62) | the written text matches the places: a number ends where the next text begins |
| C170 | `Func/Function`: variables, functors with counters and state | invariant: counter = number of variables; refinement of shared names |
| C171 | `Pipeline/DataPipe`: stages with state, recursion over stages and values | depth-first feeding = batch runs, by induction on the stages |
| C172 | `Util/Dispatch`: chain of classes, list of handlers; variants as index and value | case analysis, induction over variants |
| C173 | `Thread/SyncValue`: recursive mutex, expressions as steps | invariant: what is done plus what is left is serial |
| C174 | `Enum/Builder`: vectors with versions, iterators | refinement of snapshots while iterators are valid |
| C175 | `Num/CheckedInt`: integer types, promotion, common type, wrapping | exact arithmetic per pair of types, by `grind`/`omega` |
| C176 | `Diag/ThreadStat`: `read` with an environment of sizes, `sscanf` as interpreter of directives | induction over the pieces and over the fields |
| C177 | `Bytes/CharArray`: `strncpy`, `strlen` with bounds | induction over the array |
| C178 | `Thread/Atomics`: wrapped arithmetic, loop of compare-and-swap, spinlock as transition system | induction; invariant: flag = number inside |
| C179 | `RefCount/Basic`: two counters modulo 2^32, steps of the handles | invariant: counters = handles, references |
| C180 | `Thread/Sem`: count, threads, log | invariant: conservation of units |
| C181 | `Holder/Alloc`: holders, log of allocator events | invariant: every allocation is in one place |
| C182 | `Storage/Aligned`: sizes and alignments, layout of a class with one more byte | arithmetic: lowest bit of the size, divisibility |
| C183 | `Holder/Erasure`: table of functions, erasures, objects | induction over the list; invariants: one destruction, own object |
| C184 | `Thread/Local`: threads with phases, keys, holders, singleton | invariant of the transition system |
| C185 | `Str/Stream` over `Inplace/Model` and `Str/Ints` | induction over the history; decimal notation is unique |
| C186 | `Scope/Exit`: a language of blocks with guards, exceptions and `return` | induction over the program; logs are pieces that can be joined |
| C187 | `Array/Model`: loops over the elements | induction; refinement to functions from indexes to values |
| C188 | `Scope/Locks`: recursive mutex, threads with stacks of guards | invariant: depth = locks − unlocks |
| C189 | `Func/Cancellable`: calls under the guard of `Thread/Life`, log of what happens | invariant over the log |
| C190 | `Num/Random`: linear congruential generator | powers 2^k of the step by induction on k; counting of scaled results |
| C191 | `Util/Fuzzy`: objects at addresses, offsets of parts decided by the whole class | lookup at the computed address; induction on pointers |
| C192 | `Thread/Finalizer`: reference counts, queue of deletions | invariant: strong = users + held by the undeleted; acyclic order |
| C193 | `Thread/Interrupt`: code as a tree of scopes, points, signal handlers | induction on the tree; relation `Sees` as specification |
| C194 | `Thread/Sleep`: answers of nanosleep as a list | induction on the list |
| C195 | `Thread/MutexLock`: answers of the system as a tree, nested reports | mutual induction on the tree |
| C196 | `Util/SysError`: table of macros, the cases, constructors, the macro | kernel computation over the whole table; inverse of integer text; cut at the first space |
| C197 | `Util/TypeNames`: find and rfind on the name | the last `::` before the first `<` |
| C198 | `Log/Message`: a comparer of five members; the text | orders of members (C105); splitting at brackets |
| C45 | ThreadPool as transition system: callers, first thread, workers, both mutexes and three condition variables; destruction not modelled | inductive invariant; progress by a distance that every own step decreases and no other step increases |
| C44, C46 | `future_impl`, `promise` as transition systems | inductive invariants; C46's swap part refuted by a witness |
