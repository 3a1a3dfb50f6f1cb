{
 "claims": [
  {
   "property": "C01",
   "status": "proved",
   "theorems": [
    "Verif.Cache.cache_size_accounting"
   ],
   "note": "All histories; no internal check fails. u64 stamp wrap and size_t overflow of the total not modelled."
  },
  {
   "property": "C02",
   "status": "proved",
   "theorems": [
    "Verif.Cache.cache_read_latest"
   ],
   "note": ""
  },
  {
   "property": "C03",
   "status": "proved",
   "theorems": [
    "Verif.Cache.fifo_eviction_order"
   ],
   "note": ""
  },
  {
   "property": "C04",
   "status": "proved",
   "theorems": [
    "Verif.Cache.lru_eviction_order"
   ],
   "note": ""
  },
  {
   "property": "C05",
   "status": "proved",
   "theorems": [
    "Verif.Cache.eviction_exact_and_minimal",
    "Verif.Cache.cache_eviction"
   ],
   "note": ""
  },
  {
   "property": "C06",
   "status": "proved",
   "theorems": [
    "Verif.TwoQueue.two_queue_read_latest",
    "Verif.TwoQueue.two_queue_accounting",
    "Verif.TwoQueue.two_queue_no_silent_loss"
   ],
   "note": ""
  },
  {
   "property": "C07",
   "status": "proved",
   "theorems": [
    "Verif.Ring.bithread_buffer_is_fifo",
    "Verif.Ring.bithread_buffer_checks_never_fail",
    "Verif.Ring.bithread_buffer_lossless"
   ],
   "note": "User stays inside the windows it was given (push_beyond_window_not_detected shows that the code itself does not detect a violation)."
  },
  {
   "property": "C08",
   "status": "proved",
   "theorems": [
    "Verif.Circular.circular_buffer_is_fifo"
   ],
   "note": "At most one live reserver, as the lock intends; empty_reserver_unlocks shows that a second, empty one defeats the lock."
  },
  {
   "property": "C09",
   "status": "partial",
   "theorems": [
    "Verif.Circular.clear_empties_partial",
    "Verif.Circular.clear_violated"
   ],
   "note": "The full claim is false of the code: clear_violated is a reachable counterexample (wrap flag not reset); proved for all reachable non-wrapped states."
  },
  {
   "property": "C10",
   "status": "proved",
   "theorems": [
    "Verif.DataBuffer.databuffer_refines_spec",
    "Verif.DataBuffer.databuffer_lossless",
    "Verif.DataBuffer.databuffer_eod_is_final"
   ],
   "note": "Boundaries shown: eod_overtakes_process_in_progress (EndOfData overlapping a Process), required_free_space_can_deadlock."
  },
  {
   "property": "C11",
   "status": "proved",
   "theorems": [
    "Verif.PacketBuffer.packet_buffer_is_queue",
    "Verif.PacketBuffer.packet_buffer_exactly_once",
    "Verif.PacketBuffer.packet_buffer_checks_never_fail",
    "Verif.PacketBuffer.packet_buffer_blocked"
   ],
   "note": "For every interleaving of one reader with mutex-serialised producers. Clear during the unlocked section of Read is outside the protocol (clear_during_read_is_ub shows it is undefined behaviour)."
  },
  {
   "property": "C12",
   "status": "partial",
   "theorems": [
    "Verif.PacketBuffer.packet_accepted_partial",
    "Verif.PacketBuffer.empty_buffer_rejects_violated"
   ],
   "note": "The code violates the property: an empty buffer may refuse a packet larger than half the storage for ever. Proved: acceptance whenever the free space is at least twice the packet size less one."
  },
  {
   "property": "C13",
   "status": "proved",
   "theorems": [
    "Verif.PagedBuffer.paged_buffer_is_log",
    "Verif.PagedBuffer.paged_buffer_concurrent"
   ],
   "note": "Sequential clients: exact refinement of a byte log. Concurrent sections: refinement until a Read disturbed by Pop/Seek ends; read_overlapping_push_throws and pop_during_read_skips show what goes wrong outside. IPage is abstract in the code; modelled as a byte list."
  },
  {
   "property": "C14",
   "status": "partial",
   "theorems": [
    "Verif.PagedBuffer.no_byte_twice_partial",
    "Verif.PagedBuffer.pop_during_read_redelivers_violated",
    "Verif.PagedBuffer.cancelled_read_redelivers_violated"
   ],
   "note": "The code violates the property when a Pop drops a page during a Read, or a Read is cancelled after delivery. Proved for calm, uncancelled, Seek-free traces."
  },
  {
   "property": "C15",
   "status": "partial",
   "theorems": [
    "Verif.Adaptors.aligner_blocks_aligned",
    "Verif.Adaptors.aligner_preserves_stream_partial",
    "Verif.Adaptors.aligner_loses_block_violated"
   ],
   "note": "The code violates the property when cancelled during the flush of the buffered block. Alignment is proved under the (necessary) assumption that the consumer accepts aligned amounts."
  },
  {
   "property": "C16",
   "status": "partial",
   "theorems": [
    "Verif.Adaptors.take_exact_partial",
    "Verif.Adaptors.skip_exact_partial",
    "Verif.Adaptors.skip_only",
    "Verif.Adaptors.taker_exceeds_violated",
    "Verif.Adaptors.skipper_loses_violated",
    "Verif.Adaptors.take_end_of_data"
   ],
   "note": "Violated when the source throws (taker) or a processRest skip is cancelled; proved otherwise. Note: the taker never signals end of data itself."
  },
  {
   "property": "C17",
   "status": "proved",
   "theorems": [
    "Verif.OrderedMap.ordered_map_refines",
    "Verif.OrderedMap.ordered_map_find_agrees",
    "Verif.OrderedMap.ordered_map_insertion_order"
   ],
   "note": "Map model with nu=Unit is the set. Allocation failure in DoInsertAtPos not modelled."
  },
  {
   "property": "C18",
   "status": "proved",
   "theorems": [
    "Verif.Flat.flat_map_refines",
    "Verif.Flat.flat_map_hint_irrelevant"
   ],
   "note": "std::lower_bound/upper_bound by contract; map model with nu=Unit is the set."
  },
  {
   "property": "C19",
   "status": "partial",
   "theorems": [
    "Verif.Inplace.inplace_vector_refines_partial",
    "Verif.Inplace.inplace_vector_lifetimes",
    "Verif.Inplace.inplace_vector_self_assign_violated"
   ],
   "note": "Refinement to plain lists for any number of vectors and all histories without self-assignment, including no undefined lifetime errors in the inline storage; self-assignment empties the vector (proved by witness)."
  },
  {
   "property": "C20",
   "status": "partial",
   "theorems": [
    "Verif.Bimap.bimap_bijection_partial",
    "Verif.Bimap.bimap_collision_violated"
   ],
   "note": "Bijection proved for all histories in which no insertion collides on one side only; for colliding insertions the two views diverge (witness)."
  },
  {
   "property": "C21",
   "status": "proved",
   "theorems": [
    "Verif.RefCount.refcount_presence",
    "Verif.RefCount.refcount_edges",
    "Verif.RefCount.refcounting_value_edges"
   ],
   "note": ""
  },
  {
   "property": "C22",
   "status": "proved",
   "theorems": [
    "Verif.Intrusive.intrusive_list_refines"
   ],
   "note": "Pointer-level model; the need for the precondition is shown by intrusive_list_double_push_violated."
  },
  {
   "property": "C23",
   "status": "proved",
   "theorems": [
    "Verif.Joiner.joiner_is_concatenation",
    "Verif.Joiner.joiner_intervals"
   ],
   "note": "all lists of parts with total size and iterator movements up to 2^62 (difference_type arithmetic does not overflow)"
  },
  {
   "property": "C24",
   "status": "proved",
   "theorems": [
    "Verif.Trans.transactional_set_refines",
    "Verif.Trans.transactional_set_equivalent_values_violated"
   ],
   "note": "comparers whose equivalence is equality; the _violated theorem shows that this restriction of the quantifier is needed"
  },
  {
   "property": "C25",
   "status": "proved",
   "theorems": [
    "Verif.Trans.transactional_dictionary_refines"
   ],
   "note": "key comparers whose equivalence is equality, ValueEqualsComparer is equality"
  },
  {
   "property": "C26",
   "status": "proved",
   "theorems": [
    "Verif.Trans.transactional_set_enumerates",
    "Verif.Trans.transactional_dictionary_enumerates",
    "Verif.Trans.transactional_set_refines",
    "Verif.Trans.transactional_dictionary_refines"
   ],
   "note": ""
  },
  {
   "property": "C27",
   "status": "proved",
   "theorems": [
    "Verif.Trans.transactional_set_observers",
    "Verif.Trans.transactional_dictionary_observers"
   ],
   "note": "slots are called synchronously (no task executor); connection populator under the same mutex"
  },
  {
   "property": "C28",
   "status": "partial",
   "theorems": [
    "Verif.Trans.TList.transactional_list_refines",
    "Verif.Trans.TList.list_diff_replays_partial",
    "Verif.Trans.TList.list_populator_replays",
    "Verif.Trans.TList.list_apply_violated"
   ],
   "note": "the diff replays with erase/insert semantics for all lists; the library's own Apply refutes the full statement (it overwrites instead of inserting)"
  },
  {
   "property": "C29",
   "status": "proved",
   "theorems": [
    "Verif.Trans.Snap.enumerators_are_snapshots",
    "Verif.Trans.Excl.transactions_exclude",
    "Verif.Trans.Excl.transactions_no_lost_wakeup",
    "Verif.Trans.Excl.finish_wakes_all"
   ],
   "note": ""
  },
  {
   "property": "C30",
   "status": "partial",
   "theorems": [
    "Verif.Bits.get_big_endian",
    "Verif.Bits.get_little_endian",
    "Verif.Bits.set_big_endian",
    "Verif.Bits.set_little_endian",
    "Verif.Bits.get_set_big_endian",
    "Verif.Bits.get_set_little_endian_partial",
    "Verif.Bits.bit_stream_refines",
    "Verif.Bits.little_endian_24_violated",
    "Verif.Bits.get_little_endian_any",
    "Verif.Bits.little_endian_4_violated"
   ],
   "note": "Big-endian fields of any size and offset: getter, setter, round trip, whole programs on bit streams. Little-endian: getter for any size (the field filled with zero bits to the smallest type, bytes in opposite order); setter and round trip for 8/16/32/64-bit fields only, the code violates the round trip for 24-bit and for 4-bit fields (witnesses)."
  },
  {
   "property": "C31",
   "status": "proved",
   "theorems": [
    "Verif.Text.utf8_range_refines",
    "Verif.Text.utf8_steps_inverse",
    "Verif.Text.utf8_get_exact",
    "Verif.Text.utf8_bad_lead"
   ],
   "note": "Any program of range operations over any encoded text; step inverses and exact acceptance for arbitrary byte strings."
  },
  {
   "property": "C32",
   "status": "partial",
   "theorems": [
    "Verif.Text.utf8_validate_exact",
    "Verif.Text.utf8_validate_complete",
    "Verif.Text.utf8_validate_partial",
    "Verif.Text.utf8_validate_violated"
   ],
   "note": "All well-formed text is accepted; the code also accepts overlong three/four-byte forms, encoded surrogates and values above U+10FFFF (witnesses); exact acceptance set proved."
  },
  {
   "property": "C33",
   "status": "partial",
   "theorems": [
    "Verif.BigNum.add_exact",
    "Verif.BigNum.sub_exact",
    "Verif.BigNum.mul_exact",
    "Verif.BigNum.div_mod_exact",
    "Verif.BigNum.bitwise_exact",
    "Verif.BigNum.shift_exact",
    "Verif.BigNum.zero_block_violated"
   ],
   "note": "Exact for all normalised operands of any length and any block width. Refuted for BigUnsignedInteger(0), whose single zero block is not recognised as zero (zero_block_violated)."
  },
  {
   "property": "C34",
   "status": "partial",
   "theorems": [
    "Verif.BigNum.compare_partial",
    "Verif.BigNum.less_violated"
   ],
   "note": "Equality is right for normalised numbers and smaller numbers always compare less; operator< also holds in the wrong direction for some multi-block numbers and the two zeroes are unequal (less_violated)."
  },
  {
   "property": "C35",
   "status": "partial",
   "theorems": [
    "Verif.Math.align_exact",
    "Verif.Math.align_signed_partial",
    "Verif.Math.align_violated",
    "Verif.Math.gcd_exact",
    "Verif.Math.lcm_exact",
    "Verif.Math.isPower_exact"
   ],
   "note": "Gcd, Lcm, IsPowerOfNumber, unsigned AlignDown exact; AlignUp exact unless value + boundary - 1 overflows; alignment of negative values refuted (align_violated)."
  },
  {
   "property": "C36",
   "status": "partial",
   "theorems": [
    "Verif.Stream.Buf.buffered_step_partial",
    "Verif.Stream.Buf.buffered_transparent",
    "Verif.Stream.Buf.buffered_violated"
   ],
   "note": "Transparent for alignment 1 and all histories (short reads and cancellation included), and step by step for any alignment while the position is inside the content; refuted for alignment > 1 and a seek beyond the end (stale bytes)."
  },
  {
   "property": "C37",
   "status": "partial",
   "theorems": [
    "Verif.Stream.window_step_partial",
    "Verif.Stream.sized_window_step_partial",
    "Verif.Stream.window_create",
    "Verif.Stream.window_tell_violated"
   ],
   "note": "Exact for data below 2 GiB while nobody else moves the underlying stream; refuted when the underlying position is moved: Tell throws."
  },
  {
   "property": "C38",
   "status": "proved",
   "theorems": [
    "Verif.Thread.Pipe.pipe_transfers",
    "Verif.Thread.Pipe.spec_bytes",
    "Verif.Thread.Pipe.pipe_bytes",
    "Verif.Thread.Pipe.pipe_wakeups",
    "Verif.Thread.Pipe.overlapping_writes_lose_data",
    "Verif.Thread.Pipe.demo_alone",
    "Verif.Thread.Pipe.write_waits"
   ],
   "note": "Sections under the mutex are single steps; overlapping_writes_lose_data shows the hypothesis that writes do not overlap is needed."
  },
  {
   "property": "C39",
   "status": "proved",
   "theorems": [
    "Verif.Thread.Token.handler_calls",
    "Verif.Thread.Token.unregister_waits",
    "Verif.Thread.Token.unregister_result"
   ],
   "note": "CancellationToken as an interleaving transition system with any number of cancelling threads, handlers and sleepers. unregister_result assumes Reset is not called while a registration is in use."
  },
  {
   "property": "C40",
   "status": "partial",
   "theorems": [
    "Verif.Thread.Token.cancel_frees_waiters",
    "Verif.Thread.Token.unregister_progress_partial",
    "Verif.Thread.Token.unregister_wedge_violated",
    "Verif.Thread.Token.sleep_spurious_violated",
    "Verif.Thread.Token.sleep_times_out"
   ],
   "note": "True when Reset is not called while a registration is in use; a Reset racing with a blocked UnregisterCancellationHandler wedges it (violated witness), and Sleep may return false on a spurious wakeup without cancellation (violated witness)."
  },
  {
   "property": "C41",
   "status": "proved",
   "theorems": [
    "Verif.Thread.Life.one_thread",
    "Verif.Thread.Life.release_stops",
    "Verif.Thread.Life.release_inside",
    "Verif.Thread.Life.release_possible",
    "Verif.Thread.Life.reset_revives",
    "Verif.Thread.Life.error_means_inside",
    "Verif.Thread.Life.error_missed_violated"
   ],
   "note": "error_missed_violated concerns only the diagnostic log message, which is missed after a nested task."
  },
  {
   "property": "C42",
   "status": "proved",
   "theorems": [
    "Verif.Thread.Executor.tasks_in_order",
    "Verif.Thread.Executor.drained",
    "Verif.Thread.Executor.progress",
    "Verif.Thread.Executor.escaping_exception_loses_tasks"
   ],
   "note": "escaping_exception_loses_tasks shows the proviso is needed."
  },
  {
   "property": "C43",
   "status": "proved",
   "theorems": [
    "Verif.Timer.never_early",
    "Verif.Timer.deadlines",
    "Verif.Timer.starts_are_takes",
    "Verif.Timer.one_shot",
    "Verif.Timer.deadline_order",
    "Verif.Timer.release_stops",
    "Verif.Timer.release_possible",
    "Verif.Timer.no_missed_deadline",
    "Verif.Timer.drained",
    "Verif.Timer.kept"
   ],
   "note": "Monotonic clock is an arbitrary non-decreasing integer; TaskLifeToken abstracted as proved in C41."
  },
  {
   "property": "C44",
   "status": "proved",
   "theorems": [
    "Verif.Thread.Future.assigned_once",
    "Verif.Thread.Future.setters",
    "Verif.Thread.Future.get_result",
    "Verif.Thread.Future.wait_ready",
    "Verif.Thread.Future.get_ends_with_result",
    "Verif.Thread.Future.no_lost_wakeup",
    "Verif.Thread.Future.broken_promise",
    "Verif.Thread.Future.get_invalidates",
    "Verif.Thread.Future.wait_begins_ends",
    "Verif.Thread.Future.abort_result"
   ],
   "note": ""
  },
  {
   "property": "C45",
   "status": "proved",
   "theorems": [
    "Verif.Pool.pool_thread_limit",
    "Verif.Pool.pool_tasks_once",
    "Verif.Pool.pool_accepted_log",
    "Verif.Pool.pool_canQueue",
    "Verif.Pool.pool_call_mark",
    "Verif.Pool.pool_refused_full",
    "Verif.Pool.pool_reap",
    "Verif.Pool.pool_mutex_progress",
    "Verif.Pool.pool_worker_starts",
    "Verif.Pool.pool_worker_kept",
    "Verif.Pool.pool_first_starts",
    "Verif.Pool.pool_no_lost_wakeup",
    "Verif.Pool.pool_will_wake",
    "Verif.Pool.pool_quiescent",
    "Verif.Pool.pool_call_task",
    "Verif.Pool.pool_idle"
   ],
   "note": "Transition system with one step per section under a worker's mutex; destruction is not modelled (accepted tasks not yet started are dropped by it), nor tasks that throw something that is not a std::exception."
  },
  {
   "property": "C46",
   "status": "partial",
   "theorems": [
    "Verif.Thread.Future.get_future_partial",
    "Verif.Thread.Future.get_future_swap_violated"
   ],
   "note": "Proved for histories without swap; promise::swap does not swap the retrieved flag, so the full statement is false of the code (witness)."
  },
  {
   "property": "C47",
   "status": "partial",
   "theorems": [
    "Verif.OrderedMap.ordered_map_copy_partial",
    "Verif.OrderedMap.ordered_map_self_assign_violated",
    "Verif.OrderedMap.ordered_map_copy_comparer_violated",
    "Verif.Flat.flat_map_copy_alloc_violated"
   ],
   "note": "The code loses elements on self-assignment and when Compare() differs from the comparer in use; proved when the comparer is Compare() and the target is another container. The defaulted copies of flat_set/flat_map are member-wise and not restated."
  },
  {
   "property": "C48",
   "status": "partial",
   "theorems": [
    "Verif.RefCount.refcount_presence",
    "Verif.RefCount.refcount_edges",
    "Verif.RefCount.refcounting_value_edges",
    "Verif.RefCount.refcount_throwing_release_violated"
   ],
   "note": "Addition callbacks may throw (map/set), all callbacks may throw (value/counter); a throwing removal callback of the map/set leaves an entry with count 0 (witness)."
  },
  {
   "property": "C49",
   "status": "partial",
   "theorems": [
    "Verif.Text.to_utf8_partial",
    "Verif.Text.to_utf8_bom_partial",
    "Verif.Text.to_utf8_utf16",
    "Verif.Text.utf16_surrogates_violated",
    "Verif.Text.utf8_unpack_lead"
   ],
   "note": "Full for Latin-1, UTF-8, UTF-32 and UTF-16 restricted to the BMP; the code violates the property for surrogate pairs (0x10000 not added), with an exact theorem of what it computes. For ISO 8859-n and CP1251 see C118."
  },
  {
   "property": "C50",
   "status": "proved",
   "theorems": [
    "Verif.Text.locale_compare_preorder",
    "Verif.Text.locale_compare_exact",
    "Verif.Text.compare_eq"
   ],
   "note": "Preorder for arbitrary strings; exactness for texts whose characters the decoder reads correctly (see C49). Table-driven code pages not modelled."
  },
  {
   "property": "C51",
   "status": "proved",
   "theorems": [
    "Verif.Text.cp866_round_trip",
    "Verif.Text.to_cp866_exact"
   ],
   "note": ""
  },
  {
   "property": "C52",
   "status": "proved",
   "theorems": [
    "Verif.Text.utf8_substring_symbols",
    "Verif.Text.utf8_substring_bytes"
   ],
   "note": ""
  },
  {
   "property": "C53",
   "status": "partial",
   "theorems": [
    "Verif.Text.utf8_to_lower",
    "Verif.Text.utf8_to_lower_0400"
   ],
   "note": "Exact map proved; U+0400 is a Cyrillic capital letter the code does not lower (witness)."
  },
  {
   "property": "C54",
   "status": "proved",
   "theorems": [
    "Verif.BigNum.parse_exact",
    "Verif.BigNum.parse_prefix",
    "Verif.BigNum.dump_exact",
    "Verif.BigNum.print_exact",
    "Verif.BigNum.bytes_exact",
    "Verif.BigNum.toPrimitive_exact"
   ],
   "note": "For every block width in which the base fits."
  },
  {
   "property": "C55",
   "status": "partial",
   "theorems": [
    "Verif.Math.fraction_partial",
    "Verif.Math.fraction_edge",
    "Verif.Math.parse_fraction_partial",
    "Verif.Math.fraction_violated"
   ],
   "note": "Within one unit of the last digit, exact when representable; rounding to nearest refuted (digit-wise rounding), and large divisors / long texts give wrong results (fraction_violated). FromString<u64> is an argument of the model."
  },
  {
   "property": "C56",
   "status": "partial",
   "theorems": [
    "Verif.Stream.Mem.mem_step_partial",
    "Verif.Stream.Mem.mem_seek_violated"
   ],
   "note": "Exact below 2 GiB; refuted above: the cast of the size to int makes every Seek fail."
  },
  {
   "property": "C57",
   "status": "partial",
   "theorems": [
    "Verif.Stream.Chunked.chunked_read",
    "Verif.Stream.Chunked.chunked_seek",
    "Verif.Stream.Chunked.chunked_write_partial",
    "Verif.Stream.Chunked.chunked_write_violated"
   ],
   "note": "Reads and seeks for all chunkings; writes at the end or within one chunk; refuted for a write across a chunk boundary (written in part, then throws)."
  },
  {
   "property": "C58",
   "status": "proved",
   "theorems": [
    "Verif.Stream.Line.read_line",
    "Verif.Stream.Line.split_unique",
    "Verif.Stream.Line.read_all",
    "Verif.Stream.Line.read_back",
    "Verif.Stream.Line.pipe_line",
    "Verif.Stream.Line.BPipe.buffered_pipe"
   ],
   "note": ""
  },
  {
   "property": "C59",
   "status": "proved",
   "theorems": [
    "Verif.Thread.CondWait.cancel_ends_wait",
    "Verif.Thread.CondWait.wait_returns"
   ],
   "note": "Any number of waiters on one condition variable and mutex, each with its own token."
  },
  {
   "property": "C60",
   "status": "partial",
   "theorems": [
    "Verif.Thread.Joining.joining_partial",
    "Verif.Thread.Joining.joining_both_partial",
    "Verif.Thread.Joining.joining_violated",
    "Verif.Thread.Joined.handler_unused",
    "Verif.Thread.Joined.no_clash",
    "Verif.Thread.Joined.no_deadlock",
    "Verif.Thread.Joined.cancel_goes_on",
    "Verif.Thread.Joined.cancel_wakes_partial",
    "Verif.Thread.Joined.registers",
    "Verif.Thread.Joined.stays_registered",
    "Verif.Thread.Joined.woken_result",
    "Verif.Thread.Joined.timedOut_result",
    "Verif.Thread.Joined.result_stays"
   ],
   "note": "Waking up: true if neither token was cancelled at registration; a token cancelled before the wait leaves the waiter blocked until the other one is cancelled (violated witness). Unregistration (Thread/Joined): fully proved for any number of consecutive waits; Reset of a token in use is not modelled."
  },
  {
   "property": "C61",
   "status": "partial",
   "theorems": [
    "Verif.Thread.Barrier.barrier_partial",
    "Verif.Thread.Barrier.barrier_spurious_violated"
   ],
   "note": "True without spurious wakeups of threads waiting for the others; such a wakeup lets the thread through alone (violated witness)."
  },
  {
   "property": "C62",
   "status": "proved",
   "theorems": [
    "Verif.Thread.Threadless.tasks_in_order",
    "Verif.Thread.Threadless.one_executor",
    "Verif.Thread.Threadless.executes_all",
    "Verif.Thread.Threadless.refused_iff",
    "Verif.Thread.Threadless.progress"
   ],
   "note": ""
  },
  {
   "property": "C63",
   "status": "partial",
   "theorems": [
    "Verif.Timer.starts_with_function",
    "Verif.Timer.function_alive_partial",
    "Verif.Timer.function_alive_violated"
   ],
   "note": "Holds if no task releases its own token; a task that does destroys the function object being called (witness)."
  },
  {
   "property": "C64",
   "status": "proved",
   "theorems": [
    "Verif.Signal.signal_no_call_after_disconnect",
    "Verif.Signal.signal_disconnect_waits"
   ],
   "note": "Synchronous handlers; the life token is the model of C42."
  },
  {
   "property": "C65",
   "status": "proved",
   "theorems": [
    "Verif.Signal.signal_emission_start",
    "Verif.Signal.signal_set_start",
    "Verif.Signal.signal_emission_next",
    "Verif.Signal.signal_emission_all",
    "Verif.Signal.signal_stacks_own"
   ],
   "note": "Synchronous handlers; the order and the membership are stated against the history of connections."
  },
  {
   "property": "C66",
   "status": "partial",
   "theorems": [
    "Verif.Signal.observable_history_partial",
    "Verif.Signal.observable_last_partial",
    "Verif.Signal.observable_connect",
    "Verif.Signal.observable_set",
    "Verif.Signal.observable_last_violated",
    "Verif.Signal.observable_populate_violated"
   ],
   "note": "Proved as long as no handler (and no slot being populated) sets the value itself and the signal is not raised otherwise. If a handler sets the value, later observers end with an outdated value: refuted by two runs."
  },
  {
   "property": "C67",
   "status": "partial",
   "theorems": [
    "Verif.Signal.signal_owner_finishes_partial",
    "Verif.Signal.signal_deadlock_violated"
   ],
   "note": "Proved if the signal is raised only under its lock (as ObservableValue does). Raising it unlocked allows a deadlock of the signal mutex with the token of the handler: the witness state is proved to be stuck whatever the other threads do."
  },
  {
   "property": "C68",
   "status": "partial",
   "theorems": [
    "Verif.Compress.coder_never_fails",
    "Verif.Compress.coder_roundtrip_terminated",
    "Verif.Compress.coder_roundtrip_partial",
    "Verif.Compress.coder_pending_violated",
    "Verif.Compress.coder_padding_violated",
    "Verif.Compress.coder_end_twice_violated"
   ],
   "note": "Proved: encoding never fails, and the decoder finds what was encoded if the bits are ended properly, or if nothing was pending at the end. The code violates the full statement: EndOfData drops the pending bits (coder_pending_violated) and bits that both registers share (coder_padding_violated), with witnesses; and nothing can be encoded after EndOfData."
  },
  {
   "property": "C69",
   "status": "partial",
   "theorems": [
    "Verif.Compress.ppm_context_ok",
    "Verif.Compress.ppm_order0_complete",
    "Verif.Compress.ppm_compress_succeeds",
    "Verif.Compress.ppm_decompress_data",
    "Verif.Compress.ppm_roundtrip_terminated",
    "Verif.Compress.ppm_roundtrip_partial",
    "Verif.Compress.ppm_pending_violated",
    "Verif.Compress.ppm_wrap_violated",
    "Verif.Compress.lookup_found"
   ],
   "note": "Proved for dictionaries whose probabilities add up inside their type, if the bits are ended properly or nothing was pending at the end. The code violates the full statement: the byte 201 is not decompressed with the uniform dictionary (ppm_pending_violated), and with u8 probabilities low is added up modulo 256 (ppm_wrap_violated)."
  },
  {
   "property": "C70",
   "status": "partial",
   "theorems": [
    "Verif.Compress.bits_to_bytes_is_queue",
    "Verif.Compress.bits_to_bytes_in_range",
    "Verif.Compress.bits_to_bytes_end_partial",
    "Verif.Compress.bits_to_bytes_end_violated",
    "Verif.Compress.compressor_delivers_partial",
    "Verif.Compress.bits_overrun_violated",
    "Verif.Compress.compressor_overrun_violated",
    "Verif.Compress.bytes_to_bits_is_queue",
    "Verif.Compress.bytes_to_bits_accepts",
    "Verif.Compress.bytes_to_bits_underrun_violated"
   ],
   "note": "Proved for all histories in which bits are added only when there is room. The code violates the full statement: ending the data never ends if the bits end inside the last byte of the array, and there is data (found by search, checked in the kernel) for which one symbol writes more bits than the array holds."
  },
  {
   "property": "C71",
   "status": "partial",
   "theorems": [
    "Verif.Time.gmtime_gregorian",
    "Verif.Time.timegm_gregorian",
    "Verif.Time.first_of_month",
    "Verif.Time.timegm_gmtime",
    "Verif.Time.gmtime_timegm",
    "Verif.Time.calendar_increasing",
    "Verif.Time.calendar_exists",
    "Verif.Time.timegm_month_zero_violated"
   ],
   "note": "Proved for the conversion the repository implements (32-bit time_t platforms), against an axiomatic calendar (unique, Spec.IsCalendar.unique). Month 0 or less reads outside the table (violated)."
  },
  {
   "property": "C72",
   "status": "partial",
   "theorems": [
    "Verif.Time.breakDown_fields_partial",
    "Verif.Time.breakDown_roundtrip_partial",
    "Verif.Time.breakDown_roundtrip_violated",
    "Verif.Time.breakDown_fields_violated",
    "Verif.Time.breakDown_year_violated",
    "Verif.Time.fromBrokenDown_value",
    "Verif.Time.bdtCompare_total_order_partial",
    "Verif.Time.bdtCompare_chronological_violated",
    "Verif.Time.daysTo_partial",
    "Verif.Time.daysTo_violated"
   ],
   "note": "Proved from 1970 on (and for whole seconds before) in the years a 16-bit year can hold. The code violates the rest: negative milliseconds before 1970, an exception for the last second of 1969, wrap of the year, and Compare looks at milliseconds first, so it is a total order but not the chronological one."
  },
  {
   "property": "C73",
   "status": "partial",
   "theorems": [
    "Verif.Time.bcd_duration",
    "Verif.Time.mjd_partial",
    "Verif.Time.mjd_violated",
    "Verif.Time.mjd_bcd_roundtrip",
    "Verif.Time.bcd_mjd_roundtrip",
    "Verif.Time.ntp_seconds_roundtrip",
    "Verif.Time.ntp_seconds_value",
    "Verif.Time.ntp_fixed_partial",
    "Verif.Time.ntp_fraction_violated",
    "Verif.Time.ntp_era_violated",
    "Verif.Time.windows_partial",
    "Verif.Time.windows_violated",
    "Verif.Time.windows_order_violated",
    "Verif.Time.timeT_roundtrip",
    "Verif.Time.timeT_violated"
   ],
   "note": "Violated by the code: MJD rounds towards 1970, the fraction of NTP timestamps is ignored and they wrap in 2036, the sub-second part of Windows file times is added as milliseconds, ToTimeT is 32 bits unsigned."
  },
  {
   "property": "C74",
   "status": "partial",
   "theorems": [
    "Verif.Time.dur_getters",
    "Verif.Time.round_nearest",
    "Verif.Time.absolute_spec",
    "Verif.Time.time_diff_add",
    "Verif.Time.time_add_assoc_partial",
    "Verif.Time.time_add_assoc_violated",
    "Verif.Time.timeCmp_spec",
    "Verif.Time.timeCmp_order_partial",
    "Verif.Time.timeCmp_transitive_violated"
   ],
   "note": "Adding durations below a millisecond loses them, and comparison with jitter is not transitive (both violated); everything else proved."
  },
  {
   "property": "C75",
   "status": "partial",
   "theorems": [
    "Verif.Str.fromText_digits",
    "Verif.Str.fromText_negative",
    "Verif.Str.fromText_refused",
    "Verif.Str.sign_alone_violated",
    "Verif.Str.toText_spec",
    "Verif.Str.fromText_toText",
    "Verif.Str.int_types_ok",
    "Verif.Str.int_type_limits"
   ],
   "note": "All strings are covered; the code violates the statement for a sign alone, which is accepted as 0."
  },
  {
   "property": "C76",
   "status": "partial",
   "theorems": [
    "Verif.Str.fromHex_spec",
    "Verif.Str.toHex_spec",
    "Verif.Str.fromHex_toHex",
    "Verif.Str.bytes_roundtrip",
    "Verif.Str.fromHexBytes_spec",
    "Verif.Str.shortHexDump_spec",
    "Verif.Str.shortHexDumpOf_violated",
    "Verif.Str.bytes_padded"
   ],
   "note": "All parts proved except the mark of the short dump of containers, which is never printed (violated)."
  },
  {
   "property": "C77",
   "status": "partial",
   "theorems": [
    "Verif.Str.split_spec",
    "Verif.Str.IsSplit.unique",
    "Verif.Str.join_spec",
    "Verif.Str.join_split",
    "Verif.Str.IsSplit.delimiter_free",
    "Verif.Str.split_join",
    "Verif.Str.splitAny_spec",
    "Verif.Str.split_empty_violated",
    "Verif.Str.first_violated"
   ],
   "note": "Proved for every delimiter that is not empty, and for IsAnyOf. Violations proved: with an empty delimiter the range never ends; First after Next returns the whole string as the first piece."
  },
  {
   "property": "C78",
   "status": "partial",
   "theorems": [
    "Verif.Str.replaceAll_spec",
    "Verif.Str.replaceAll_eq_join_split",
    "Verif.Str.replaceAll_empty_violated",
    "Verif.Str.strip_spec",
    "Verif.Str.leftStrip_spec",
    "Verif.Str.ref_find_partial",
    "Verif.Str.ref_find_violated",
    "Verif.Str.ref_substr_violated",
    "Verif.Str.ref_substr_partial"
   ],
   "note": "ReplaceAll with a pattern that is not empty and Strip are proved. Violations proved: ReplaceAll with an empty pattern does not end on any string that is not empty; StringRef::find reports a match that begins inside but ends outside the reference; StringRef::substr with a length goes beyond the reference."
  },
  {
   "property": "C79",
   "status": "proved",
   "theorems": [
    "Verif.Str.editDistance_spec",
    "Verif.Str.editDistance_metric"
   ],
   "note": "The two-row program is proved to compute the least length of an edit sequence; no access is outside the rows. Counters are unbounded (strings shorter than 2^64)."
  },
  {
   "property": "C80",
   "status": "partial",
   "theorems": [
    "Verif.Str.search_spec",
    "Verif.Str.mem_allReports",
    "Verif.Str.search_complete",
    "Verif.Str.duplicate_violated"
   ],
   "note": "Proved for all lists of patterns and all texts. Missing (violated, proved): of equal patterns only the last added is reported, and the empty pattern never."
  },
  {
   "property": "C81",
   "status": "partial",
   "theorems": [
    "Verif.Str.parse_places_partial",
    "Verif.Str.parse_head_partial",
    "Verif.Str.parse_head_accepts",
    "Verif.Str.Matches.concat",
    "Verif.Str.parse_unanchored_violated",
    "Verif.Str.parse_adjacent_violated",
    "Verif.Str.parse_failure_assigns_violated",
    "Verif.Str.parse_percent"
   ],
   "note": "Exactly which strings are accepted and what is assigned, for every format whose places are separated by text (places take up to the first occurrence of the text after them). Violations proved: text at the beginning of the format need not stand at the beginning of the string; adjacent places are forgotten; a failing parse has already assigned arguments."
  },
  {
   "property": "C82",
   "status": "partial",
   "theorems": [
    "Verif.Holder.variant_refines_partial",
    "Verif.Holder.variant_get",
    "Verif.Holder.self_assign_violated",
    "Verif.Holder.foreign_exception_violated",
    "Verif.Holder.variant_less",
    "Verif.Holder.variant_equal",
    "Verif.Holder.variant_order"
   ],
   "note": "Violated by self-assignment (value read after destruction) and by constructors that throw something that is not a std::exception (double destruction); proved for all other histories."
  },
  {
   "property": "C83",
   "status": "proved",
   "theorems": [
    "Verif.Holder.Opt.optional_refines",
    "Verif.Holder.Opt.optional_get",
    "Verif.Holder.Opt.compare_agrees",
    "Verif.Holder.Opt.less_order",
    "Verif.Holder.Opt.compare_value"
   ],
   "note": ""
  },
  {
   "property": "C84",
   "status": "partial",
   "theorems": [
    "Verif.Holder.Any.any_refines_partial",
    "Verif.Holder.Any.any_get",
    "Verif.Holder.Any.self_assign_violated",
    "Verif.Holder.Any.throwing_assign_violated"
   ],
   "note": "Violated by self-assignment (empties the any) and by a throwing copy in operator= from a value (the type tag stays set, the destructor destroys garbage); proved for all other histories."
  },
  {
   "property": "C85",
   "status": "proved",
   "theorems": [
    "Verif.Holder.Shared.shared_safe",
    "Verif.Holder.Shared.shared_no_leak",
    "Verif.Holder.Shared.lock_spec",
    "Verif.Holder.Shared.unique_spec",
    "Verif.Holder.Shared.lock_progress",
    "Verif.Holder.Shared.shared_pending"
   ],
   "note": ""
  },
  {
   "property": "C86",
   "status": "partial",
   "theorems": [
    "Verif.Holder.SelfCount.self_count_partial",
    "Verif.Holder.SelfCount.null_use_count",
    "Verif.Holder.SelfCount.self_count_no_leak",
    "Verif.Holder.SelfCount.delete_enabled",
    "Verif.Holder.SelfCount.assign_spec",
    "Verif.Holder.SelfCount.from_destructor_violated"
   ],
   "note": "Violated when the destructor of the object calls self_count_ptr_from_this: the object is deleted twice; proved for all other schedules."
  },
  {
   "property": "C87",
   "status": "partial",
   "theorems": [
    "Verif.Range.iter_fwd",
    "Verif.Range.iter_bwd",
    "Verif.Range.iter_prevEnd",
    "Verif.Range.single_fwd",
    "Verif.Range.single_bwd",
    "Verif.Range.single_prevEnd",
    "Verif.Range.transform_fwd",
    "Verif.Range.transform_bwd",
    "Verif.Range.transform_prevEnd",
    "Verif.Range.drop_new",
    "Verif.Range.drop_fwd",
    "Verif.Range.drop_bwd",
    "Verif.Range.drop_prevEnd",
    "Verif.Range.take_new",
    "Verif.Range.take_fwd",
    "Verif.Range.take_bwd",
    "Verif.Range.take_prevEnd",
    "Verif.Range.reverse_new",
    "Verif.Range.reverse_fwd",
    "Verif.Range.reverse_bwd",
    "Verif.Range.reverse_prevEnd",
    "Verif.Range.reverse_forEach",
    "Verif.Range.filter_new",
    "Verif.Range.filter_fwd",
    "Verif.Range.filter_bwd",
    "Verif.Range.filter_prevEnd",
    "Verif.Range.ofType_new",
    "Verif.Range.ofType_fwd",
    "Verif.Range.ofType_bwd",
    "Verif.Range.ofType_prevEnd",
    "Verif.Range.zip_new",
    "Verif.Range.zip_fwd",
    "Verif.Range.zip_bwd",
    "Verif.Range.zip_prevEnd",
    "Verif.Range.cycle_new",
    "Verif.Range.cycle_moves",
    "Verif.Range.split_new",
    "Verif.Range.split_fwd",
    "Verif.Range.split_bwd_partial",
    "Verif.Range.split_prevEnd",
    "Verif.Range.split_elements",
    "Verif.Range.split_sizes",
    "Verif.Range.flatten_new",
    "Verif.Range.flatten_fwd",
    "Verif.Range.flatten_bwd_partial",
    "Verif.Range.concat_new",
    "Verif.Range.concat_fwd",
    "Verif.Range.concat_bwd",
    "Verif.Range.chain_forEach",
    "Verif.Range.filter_prev_first_violated",
    "Verif.Range.split_last_violated",
    "Verif.Range.split_zero_violated",
    "Verif.Range.flatten_for_violated",
    "Verif.Range.flatten_prevEnd_violated",
    "Verif.Range.concat_prevEnd_violated",
    "Verif.Range.concat_advanced_violated",
    "Verif.Range.zip_concat_last_violated"
   ],
   "note": "Violated: begin() and end() of Flatten over only empty ranges differ, so a for loop throws; Flatten and Concat cannot step back from the end, so Last and end() of a Zip over them throw; Split::Last is behind the last piece when the size is a multiple; Split into pieces of 0 never ends; Concat of an advanced range shows more elements backward than forward; a Prev that throws in Filter leaves it at a rejected element. Everything else is proved. Zip is modelled for two ranges."
  },
  {
   "property": "C88",
   "status": "proved",
   "theorems": [
    "Verif.Range.forEach_eq",
    "Verif.Range.count_eq",
    "Verif.Range.anyOf_eq",
    "Verif.Range.allOf_eq",
    "Verif.Range.noneOf_eq",
    "Verif.Range.indexOf_eq",
    "Verif.Range.elementAt_eq",
    "Verif.Range.fold_eq",
    "Verif.Range.fold1_eq",
    "Verif.Range.minElement_spec",
    "Verif.Range.maxElement_spec",
    "Verif.Range.for_eq",
    "Verif.Range.for_split"
   ],
   "note": ""
  },
  {
   "property": "C89",
   "status": "partial",
   "theorems": [
    "Verif.Range.iter_access",
    "Verif.Range.single_access",
    "Verif.Range.transform_access",
    "Verif.Range.drop_access",
    "Verif.Range.take_access",
    "Verif.Range.reverse_access_partial",
    "Verif.Range.reverse_move_end_violated",
    "Verif.Range.reverse_move_from_end_violated"
   ],
   "note": "Violated by Reverse: Move to the end throws, and Move from the end does not leave it; proved for moves between elements of a reversed range and for all other ranges."
  },
  {
   "property": "C90",
   "status": "partial",
   "theorems": [
    "Verif.Time.fromIso_value_partial",
    "Verif.Time.fromIso_date",
    "Verif.Time.iso_roundtrip_partial",
    "Verif.Time.matcher_search",
    "Verif.Time.matcher_exists",
    "Verif.Time.toIso_text",
    "Verif.Time.iso_before_1970_violated",
    "Verif.Time.iso_second_violated",
    "Verif.Time.iso_negative_year_violated",
    "Verif.Time.iso_unchecked_violated",
    "Verif.Time.iso_double_rounding_violated",
    "Verif.Time.roundDigits_close"
   ],
   "note": "Violated before 1970 with milliseconds (text with a minus sign, unreadable), one second before 1970 (cannot be read) and for years before 0; texts like 2023-02-30 or with 65536 seconds are accepted and month 0 reads outside of a table. Fractions longer than 6 digits are rounded digit by digit and then to milliseconds, so 0.4995 ms is read as 1 ms. Everything else is proved."
  },
  {
   "property": "C91",
   "status": "partial",
   "theorems": [
    "Verif.Time.bdtToString_replaced_partial",
    "Verif.Time.bdtToString_default",
    "Verif.Time.bdt_overlap_violated"
   ],
   "note": "Proved for all formats in which no letter is repeated more often than its field has letters. Violated by e.g. ddd: occurrences overlap and memory outside of the format is read. Values are assumed not negative."
  },
  {
   "property": "C92",
   "status": "partial",
   "theorems": [
    "Verif.Time.zone_value_partial",
    "Verif.Time.zone_roundtrip",
    "Verif.Time.zone_range",
    "Verif.Time.zone_wraps_violated",
    "Verif.Time.zone_overflow_violated",
    "Verif.Time.zone_unchecked_violated"
   ],
   "note": "The round trip and the range hold for all zones. Violated: 1092:16 is read as UTC because the offset is reduced to 16 bits first, and minutes over 59 and signs within the text are accepted; reading is proved for offsets below 32768 minutes."
  },
  {
   "property": "C93",
   "status": "partial",
   "theorems": [
    "Verif.Time.durIso_roundtrip_partial",
    "Verif.Time.durIso_based_partial",
    "Verif.Time.isoDurParse_spec",
    "Verif.Time.isoDurParse_weeks",
    "Verif.Time.isoDurText_parse",
    "Verif.Time.isoDurValue_calendar",
    "Verif.Time.durIso_hours_violated",
    "Verif.Time.durIso_leap_violated",
    "Verif.Time.durIso_days_violated"
   ],
   "note": "Violated by durations of 32768 hours without a base or 32768 days with one (components are 16 bits wide; 65536 hours become PT0S) and by bases on 29 February with durations of a year or more (one day too much). Proved otherwise, for bases from 1970 to the year 32000."
  },
  {
   "property": "C94",
   "status": "partial",
   "theorems": [
    "Verif.Time.durToString_pieces_partial",
    "Verif.Time.durDefault_format",
    "Verif.Time.durDefault_value",
    "Verif.Time.dur_seconds_violated",
    "Verif.Time.dur_escape_violated"
   ],
   "note": "Violated by formats with seconds but no minutes (minutes and hours are lost) and by escaped letters of units, which count as units. Proved for what the code does for every format built of unambiguous pieces, and for the default text."
  },
  {
   "property": "C95",
   "status": "partial",
   "theorems": [
    "Verif.Coll.collections_are_values",
    "Verif.Coll.snapshot_safe",
    "Verif.Coll.removeWhere_partial",
    "Verif.Coll.peeking_predicate_violated"
   ],
   "note": "Proved for all programs of calls. Violated when the predicate given to RemoveWhere itself takes an enumerator of the collection and keeps it: the container is copied only before the loop, so elements are erased under that enumerator. removeWhere_partial covers predicates that do not."
  },
  {
   "property": "C96",
   "status": "partial",
   "theorems": [
    "Verif.Coll.list_get",
    "Verif.Coll.list_add",
    "Verif.Coll.list_set",
    "Verif.Coll.list_insert",
    "Verif.Coll.list_removeAt",
    "Verif.Coll.list_indexOf",
    "Verif.Coll.list_removeAll_partial",
    "Verif.Coll.list_removeAll_violated",
    "Verif.Coll.list_removeAll_moved_violated",
    "Verif.Coll.dictionary_refines",
    "Verif.Coll.dictionary_lookup"
   ],
   "note": "Violated by a predicate of RemoveAll that throws: the list is left with duplicated or moved-from elements. Everything else is proved."
  },
  {
   "property": "C97",
   "status": "partial",
   "theorems": [
    "Verif.Coll.multi_refines",
    "Verif.Coll.multi_lookup",
    "Verif.Coll.reverseFind_partial",
    "Verif.Coll.reverseFind_largest_violated",
    "Verif.Coll.reverseFind_smallest_violated"
   ],
   "note": "Violated by ReverseFind: for the largest key nothing is found although it is there, and for a key smaller than all a position before the first element is read (undefined behaviour). reverseFind_partial has all other keys."
  },
  {
   "property": "C98",
   "status": "partial",
   "theorems": [
    "Verif.Coll.Obs.dictionary_observers_partial",
    "Verif.Coll.Obs.dictionary_observed_partial",
    "Verif.Coll.Obs.list_observers_partial",
    "Verif.Coll.Obs.list_observed_partial",
    "Verif.Coll.Obs.multi_observers_partial",
    "Verif.Coll.Obs.multi_observed_partial",
    "Verif.Coll.Obs.reentrant_observer_violated",
    "Verif.Coll.Obs.removed_element_violated",
    "Verif.Coll.Obs.removeWhere_coarse_violated"
   ],
   "note": "Proved for observers that do not change the collection in their reports. Violated otherwise: a later observer is told of the nested change first. Violated for orders that do not tell elements apart: Remove reports the argument rather than the removed element, and RemoveWhere of a multi set removes an equivalent element that does not satisfy the predicate (proved for predicates that respect the equivalence)."
  },
  {
   "property": "C99",
   "status": "partial",
   "theorems": [
    "Verif.Coll.Obs.key_value_partial",
    "Verif.Coll.Obs.set_entry_partial",
    "Verif.Coll.Obs.keys_set_partial",
    "Verif.Coll.Obs.key_value_set",
    "Verif.Coll.Obs.set_entry_set",
    "Verif.Coll.Obs.finer_comparer_violated"
   ],
   "note": "Violated when the comparer of the view (by default ==) is finer than the order of the dictionary: Get changes and nobody is told. Proved for comparers that agree with the dictionary and for observers that do not change the collection in their reports (see C98)."
  },
  {
   "property": "C100",
   "status": "partial",
   "theorems": [
    "Verif.Trans.keys_diff",
    "Verif.Trans.value_sent",
    "Verif.Trans.key_value_follows",
    "Verif.Trans.keys_follow",
    "Verif.Trans.coarser_comparer_violated"
   ],
   "note": "Proved for comparers that agree with the equality of keys. Violated by a comparer coarser than the order of the dictionary: the conversion of a legitimate diff throws."
  },
  {
   "property": "C101",
   "status": "partial",
   "theorems": [
    "Verif.Num.compare_partial",
    "Verif.Num.add_partial",
    "Verif.Num.sub_partial",
    "Verif.Num.mul_partial",
    "Verif.Num.large_numbers_violated",
    "Verif.Num.tiny_product_violated"
   ],
   "note": "Violated above 2^53: rescaling goes through doubles, so 2^53 + 1 equals 2^53 and x + 0 is not x. Proved whenever both numbers, written with the larger number of places, are at most 2^53 (and the product is in range)."
  },
  {
   "property": "C102",
   "status": "partial",
   "theorems": [
    "Verif.Num.to_text_partial",
    "Verif.Num.to_text_short",
    "Verif.Num.from_text_partial",
    "Verif.Num.from_text_shape",
    "Verif.Num.text_round_trip_partial",
    "Verif.Num.negative_fraction_violated",
    "Verif.Num.signs_after_point_violated"
   ],
   "note": "Violated for every negative number with two or more leading zeros counted with the one before the point (|m| < 10^(e-1)): the sign is printed after the point, \"0.0-5\", which is not read back; signs after the point are accepted (\"1.-5\" is 0.95). Proved for all other numbers (reading: up to 2^53 and 308 places)."
  },
  {
   "property": "C103",
   "status": "partial",
   "theorems": [
    "Verif.Num.fixed_arithmetic_partial",
    "Verif.Num.fixed_convert_partial",
    "Verif.Num.sqrt_partial",
    "Verif.Num.sqrt_violated",
    "Verif.Num.fixed_to_text_partial",
    "Verif.Num.fixed_zeros_violated",
    "Verif.Num.fixed_from_text_partial",
    "Verif.Num.fixed_negative_violated",
    "Verif.Num.fixed_text_violated",
    "Verif.Num.fixed_div_int"
   ],
   "note": "Violated: roots of value * 4^N >= 2^32 are all 65535 / 2^N (with 16 places, the root of 4 is 0.99998); ToString does not pad the thousandths (1.05 prints as 1.50) and prints the sign twice; FromString adds the fraction to a negative integral part (\"-1.5\" is -0.5). Proved for the rest, as long as results are in range. Modelled for the default value type int."
  },
  {
   "property": "C104",
   "status": "partial",
   "theorems": [
    "Verif.Num.make_ordered",
    "Verif.Num.isEmpty_spec",
    "Verif.Num.intersect_spec",
    "Verif.Num.union_spec",
    "Verif.Num.union_exact",
    "Verif.Num.clamp_spec",
    "Verif.Num.contains_spec",
    "Verif.Num.duration_spec",
    "Verif.Num.touching_violated",
    "Verif.Num.setters_violated"
   ],
   "note": "Proved for ranges without their end. Violated: Contains includes the end, so two ranges that touch contain the same number though they do not intersect and their intersection is empty; SetStart and SetEnd make ranges with the end before the start. Modelled over unbounded integers."
  },
  {
   "property": "C105",
   "status": "proved",
   "theorems": [
    "Verif.Util.shortcut",
    "Verif.Util.derived_comparers",
    "Verif.Util.less_to_cmp",
    "Verif.Util.ptr_comparers",
    "Verif.Util.collection_order",
    "Verif.Util.collection_lexicographic",
    "Verif.Util.members_order",
    "Verif.Util.optional_less",
    "Verif.Util.comparable_order"
   ],
   "note": "The comparer of the items is a parameter and is assumed to be an order; the same-object shortcut is covered by the theorem shortcut."
  },
  {
   "property": "C106",
   "status": "partial",
   "theorems": [
    "Verif.Util.rollback_partial",
    "Verif.Util.actions_run_once",
    "Verif.Util.ended_transaction",
    "Verif.Util.destructor_stops",
    "Verif.Util.throwing_rollback_violated"
   ],
   "note": "Violated when a rollback throws: Rollback leaves the transaction active without remembering its progress, so the destructor starts over; rollbacks of later actions run twice and those of earlier ones never. Proved when no rollback throws."
  },
  {
   "property": "C107",
   "status": "proved",
   "theorems": [
    "Verif.Util.uuid_from_text",
    "Verif.Util.uuid_to_text",
    "Verif.Util.uuid_round_trip",
    "Verif.Util.uuid_read",
    "Verif.Util.uuid_make",
    "Verif.Util.uuid_order"
   ],
   "note": "Generate (random bytes) and the default constructor (indeterminate bytes) are not modelled."
  },
  {
   "property": "C108",
   "status": "partial",
   "theorems": [
    "Verif.Util.version_order",
    "Verif.Util.version_from_text",
    "Verif.Util.version_from_text_partial",
    "Verif.Util.version_round_trip",
    "Verif.Util.version_signs_violated"
   ],
   "note": "Violated only by signs (see C75): \"-.+\" is read as 0.0. Proved for texts without signs; with signs, the numbers are read as FromString<unsigned> does."
  },
  {
   "property": "C109",
   "status": "partial",
   "theorems": [
    "Verif.Util.percents_partial",
    "Verif.Util.percents_nothing",
    "Verif.Util.percents_monotone",
    "Verif.Util.percents_violated",
    "Verif.Util.progress_order_violated",
    "Verif.Util.aggregate_one",
    "Verif.Util.aggregate_many_partial",
    "Verif.Util.aggregate_many_violated",
    "Verif.Util.aggregate_partial",
    "Verif.Util.aggregate_monotone",
    "Verif.Util.aggregate_finished",
    "Verif.Util.percents_wrap_violated"
   ],
   "note": "Violated: 100 * Current overflows above 2^63 / 100; the check of the constructor with a size wraps around; < compares percents but == the numbers. Proved below that bound."
  },
  {
   "property": "C110",
   "status": "partial",
   "theorems": [
    "Verif.Token.tokens_destroyed_once",
    "Verif.Token.destroyed_unlocked",
    "Verif.Token.no_self_deadlock",
    "Verif.Token.holder_goes_on",
    "Verif.Token.no_deadlock",
    "Verif.Token.concurrent_release_violated"
   ],
   "note": "The last sentence is violated with two releases at the same time: the second returns while the first is still destroying. Everything else is proved. Threadless variants and TokenHolder are not modelled."
  },
  {
   "property": "C111",
   "status": "proved",
   "theorems": [
    "Verif.Str.stringFormat_spec",
    "Verif.Str.stringFormat_plain",
    "Verif.Str.stringFormat_place"
   ],
   "note": "Arguments are given by their texts. Numbers are read as FromString<size_t> does, so a plus sign is accepted (see C75)."
  },
  {
   "property": "C112",
   "status": "partial",
   "theorems": [
    "Verif.Ser.roundtrip_partial",
    "Verif.Ser.roundtrip_new",
    "Verif.Ser.roundtrip_any",
    "Verif.Ser.ser_inj",
    "Verif.Ser.inject_describes",
    "Verif.Ser.optional_null_pointer_violated",
    "Verif.Ser.empty_in_pair_violated",
    "Verif.Ser.stale_member_violated",
    "Verif.Ser.double_violated"
   ],
   "note": "The full statement is false, shown by four witnesses: an optional holding a null pointer is read as a null optional; an EmptyType in a pair or list leaves no trace; a null optional member of a composite leaves the old member of the target; doubles are written with six digits. Proved for all types without an optional of a nullable type and without EmptyType outside variants, for doubles that are whole numbers of at most six significant digits, and for targets without such a stale member (new objects in particular). The documents are what the interface contract of IObjectOStreamPrivate says; text formats are not part of the library. Objects stored by primary key are not modelled."
  },
  {
   "property": "C113",
   "status": "partial",
   "theorems": [
    "Verif.Ser.checked_exact",
    "Verif.Ser.unchecked_partial",
    "Verif.Ser.unchecked_violated",
    "Verif.Ser.bytes_text",
    "Verif.Ser.missing_rejected",
    "Verif.Ser.missing_optional",
    "Verif.Ser.pair_too_long",
    "Verif.Ser.pair_too_short_violated",
    "Verif.Ser.variant_index_violated",
    "Verif.Ser.unknown_class",
    "Verif.Ser.order_irrelevant",
    "Verif.Ser.strMap_object",
    "Verif.Ser.checked_64"
   ],
   "note": "The full statement is false, shown by three witnesses: a plain integer member takes the low bits of a number that does not fit; a pair of one element is accepted and keeps the second member of the target; a variant index that no alternative has is accepted and the target keeps its alternative. The other clauses are proved for all documents."
  },
  {
   "property": "C114",
   "status": "proved",
   "theorems": [
    "Verif.Enum.ofList_yields",
    "Verif.Enum.empty_yields",
    "Verif.Enum.one_yields",
    "Verif.Enum.join_yields",
    "Verif.Enum.wrap_yields",
    "Verif.Enum.where_yields",
    "Verif.Enum.transform_yields",
    "Verif.Enum.cast_yields",
    "Verif.Enum.cast_throws",
    "Verif.Enum.ofType_yields",
    "Verif.Enum.skip_yields",
    "Verif.Enum.take_yields",
    "Verif.Enum.flatten_yields",
    "Verif.Enum.diff_yields",
    "Verif.Enum.diff_unsorted",
    "Verif.Enum.Yields.unique"
   ],
   "note": "diff_unsorted shows that the ascending hypothesis is needed. The caches of Get are left out where they hold what Get of the source gives."
  },
  {
   "property": "C115",
   "status": "proved",
   "theorems": [
    "Verif.Enum.aggregate_eq",
    "Verif.Enum.aggregate1_eq",
    "Verif.Enum.all_eq",
    "Verif.Enum.any_eq",
    "Verif.Enum.count_eq",
    "Verif.Enum.indexOf_eq",
    "Verif.Enum.elementAt_eq",
    "Verif.Enum.firstOf_eq",
    "Verif.Enum.lastOf_eq",
    "Verif.Enum.single_iff",
    "Verif.Enum.drain_eq",
    "Verif.Enum.sequenceEqual_eq",
    "Verif.Enum.rFirst_at",
    "Verif.Enum.at_get",
    "Verif.Enum.rNext_at",
    "Verif.Enum.rCopy_at",
    "Verif.Enum.rLast_at",
    "Verif.Enum.rEquals_iff"
   ],
   "note": "Aggregate without an initial value is modelled for items that are not themselves nullable; for shared_ptr and optional items the code tests the accumulated value and starts again after a null one. Enumerables are taken to give the same items each time."
  },
  {
   "property": "C116",
   "status": "proved",
   "theorems": [
    "Verif.Async.no_use_after_free",
    "Verif.Async.fails_only_if_stream_throws",
    "Verif.Async.drained",
    "Verif.Async.tell_result",
    "Verif.Async.seek_result",
    "Verif.Async.write_result",
    "Verif.Async.drained_accepts",
    "Verif.Async.destroyed_complete",
    "Verif.Async.destroyed_goes_on",
    "Verif.Async.destroyed_ends"
   ],
   "note": "The underlying stream is a file whose Write writes a first part of the bytes it is given. The destructor cancels the token given to the underlying stream: one that then writes nothing keeps the thread busy forever (the exception in destroyed_ends)."
  },
  {
   "property": "C117",
   "status": "partial",
   "theorems": [
    "Verif.Async.sync_durable",
    "Verif.Async.waitSync_returns",
    "Verif.Async.bytes_genuine",
    "Verif.Async.order_violated"
   ],
   "note": "The last sentence is false of the code (order_violated): a write that continues a queued operation overtakes the writes and Syncs queued after it, so that a crash can leave contents that no prefix of the writes gives. The rest is proved."
  },
  {
   "property": "C118",
   "status": "partial",
   "theorems": [
    "Verif.Text.page_to_utf8_partial",
    "Verif.Text.unpackByte_standard",
    "Verif.Text.odd_undefined",
    "Verif.Text.standard_injective",
    "Verif.Text.page_ascii",
    "Verif.Text.page_undefined_violated"
   ],
   "note": "All entries with a character are right. Violated for bytes without one: 98 of CP1251 becomes U+0000, some bytes of ISO 8859-7 and -8 become U+FFFD and DD, FC-FF of ISO 8859-11 become unassigned characters instead of the replacement (page_undefined_violated). The specification was taken from the codecs of Python and is in the form of runs; the tables of the model were copied from the code."
  },
  {
   "property": "C119",
   "status": "partial",
   "theorems": [
    "Verif.Pipeline.read_delivers",
    "Verif.Pipeline.reactive_delivers",
    "Verif.Pipeline.readToEnd_spec",
    "Verif.Pipeline.readToEnd_array",
    "Verif.Pipeline.array_completes",
    "Verif.Pipeline.lossless_empty",
    "Verif.Pipeline.cancelled_stops",
    "Verif.Pipeline.lossless_array",
    "Verif.Pipeline.lossless_stream_partial",
    "Verif.Pipeline.lossless_pipe_partial",
    "Verif.Pipeline.lossless_mediator_partial",
    "Verif.Pipeline.lossless_reactive",
    "Verif.Pipeline.lossless_intercept_partial",
    "Verif.Pipeline.intercept_sees",
    "Verif.Pipeline.lossless_packets_partial",
    "Verif.Pipeline.packets_whole",
    "Verif.Pipeline.consumePacket_spec",
    "Verif.Pipeline.mediator_holds",
    "Verif.Pipeline.mediator_read_resets",
    "Verif.Pipeline.mediator_eod_partial",
    "Verif.Pipeline.byteDest_spec",
    "Verif.Pipeline.stream_cancelled_violated",
    "Verif.Pipeline.pipe_refused_violated",
    "Verif.Pipeline.pipe_part_violated",
    "Verif.Pipeline.mediator_cancelled_violated",
    "Verif.Pipeline.mediator_thrown_violated",
    "Verif.Pipeline.packets_cancelled_violated",
    "Verif.Pipeline.packets_tail_violated",
    "Verif.Pipeline.intercept_thrown_violated",
    "Verif.Pipeline.mediator_told_partial"
   ],
   "note": "Proved for byte arrays and every adaptor stack on them, and for the others under the conditions in the statements. Violated: a cancelled Read of ByteStreamDataSource, BufferedDataMediator or DataDepacketer loses what it had fetched (the mediator even tells the end); PipeDataSource loses the chunk when the consumer takes nothing and throws when it takes a part; DataPacketer throws for ever on a tail shorter than a packet; exceptions of a later part or of an interceptor make bytes be delivered twice."
  },
  {
   "property": "C120",
   "status": "partial",
   "theorems": [
    "Verif.Bytes.from1_part_partial",
    "Verif.Bytes.from2_part_partial",
    "Verif.Bytes.from1_refused_partial",
    "Verif.Bytes.from2_refused_partial",
    "Verif.Bytes.nested_views_partial",
    "Verif.Bytes.bytes_length",
    "Verif.Bytes.index_spec",
    "Verif.Bytes.write_spec",
    "Verif.Bytes.append_spec",
    "Verif.Bytes.requireSize_spec",
    "Verif.Bytes.clear_spec",
    "Verif.Bytes.equal_spec",
    "Verif.Bytes.create_spec",
    "Verif.Bytes.ref_part_partial",
    "Verif.Bytes.ref_nested_partial",
    "Verif.Bytes.from1_beyond_limit_violated",
    "Verif.Bytes.from2_short_violated",
    "Verif.Bytes.from1_wraps_violated",
    "Verif.Bytes.ref_wraps_violated"
   ],
   "note": "Parts within the parent are always right. Violated for parts that are not: the offset constructor of a limited view wraps the limit and shows bytes outside of the parent; the size check of the three-argument constructor forgets the offset of the parent and gives a shorter view instead of throwing; sums of offset and size wrap at 2^64."
  },
  {
   "property": "C121",
   "status": "proved",
   "theorems": [
    "Verif.Thread.Turn.one_writer",
    "Verif.Thread.Turn.writes_not_mixed",
    "Verif.Thread.Turn.no_lost_turn",
    "Verif.Thread.Turn.writer_finishes"
   ],
   "note": "Transition system; a step is the code between two points at which the mutex is released. One Wait per write guard (a second Wait on a guard that has the right would block on itself)."
  },
  {
   "property": "C122",
   "status": "proved",
   "theorems": [
    "Verif.Single.Safe.safe_one_object",
    "Verif.Single.Safe.safe_owned_alive",
    "Verif.Single.Safe.safe_alive_before_exit",
    "Verif.Single.Safe.safe_deleted_once",
    "Verif.Single.Safe.safe_no_leak",
    "Verif.Single.Safe.safe_null_means_gone",
    "Verif.Single.Safe.safe_gone_for_ever",
    "Verif.Single.Safe.safe_call_returns",
    "Verif.Single.Safe.safe_progress",
    "Verif.Single.Safe.safe_retry_means_change"
   ],
   "note": "Transition system; a step is one atomic access. call_once is taken at its word; counter does not wrap at 2^32."
  },
  {
   "property": "C123",
   "status": "partial",
   "theorems": [
    "Verif.Single.Plain.singleton_instance",
    "Verif.Single.Plain.singleton_once",
    "Verif.Single.Plain.singleton_deleted",
    "Verif.Single.Plain.singleton_isAlive",
    "Verif.Single.Plain.singleton_deleted_violated",
    "Verif.Single.Plain.store_atomic",
    "Verif.Single.Plain.store_ends",
    "Verif.Single.Phoenix.phoenix_one_alive",
    "Verif.Single.Phoenix.phoenix_deleted_at_exit",
    "Verif.Single.Phoenix.phoenix_assert_holds",
    "Verif.Single.Phoenix.phoenix_returns_alive",
    "Verif.Single.Phoenix.phoenix_reference_violated"
   ],
   "note": "Partial because the code violates the full statement: references returned by PhoenixSingleton dangle after the exit handler (witness), and a Singleton made after its holder was destroyed is never deleted (witness)."
  },
  {
   "property": "C124",
   "status": "partial",
   "theorems": [
    "Verif.Thread.SemCond.cond_mutex",
    "Verif.Thread.SemCond.cond_signal",
    "Verif.Thread.SemCond.cond_broadcast",
    "Verif.Thread.SemCond.cond_no_gap",
    "Verif.Thread.SemCond.cond_broadcast_partial",
    "Verif.Thread.SemCond.cond_broadcast_violated",
    "Verif.Thread.SemCond.cond_forgets",
    "Verif.Thread.SemCond.cond_forgets_violated"
   ],
   "note": "Violated by the code: a thread that begins to wait after a broadcast can take the wake-up of one that waited before it, which then stays blocked (witness, for every continuation without another signal); a wait that timed out stays counted, so a later signal given to nobody ends a later wait (witness). Proved as long as no new wait begins, and without timeouts, respectively."
  },
  {
   "property": "C125",
   "status": "partial",
   "theorems": [
    "Verif.Thread.Operation.reporter_partial",
    "Verif.Thread.Operation.checker_partial",
    "Verif.Thread.Operation.foreign_fatal",
    "Verif.Thread.Operation.order_violated_lifted",
    "Verif.Thread.Operation.order_violated_stuck",
    "Verif.Thread.Operation.checker_violated",
    "Verif.Thread.Operation.foreign_violated"
   ],
   "note": "Proved for objects destroyed in scope order on their own thread (any number of threads) and, for the checker, single operations. Violated by the code otherwise: out of order destruction lifts a constraint too early or leaves it for ever; the checker accepts a combination if any one of its operations is exclusive; in production builds a foreign destruction leaves the constraint (witnesses)."
  },
  {
   "property": "C126",
   "status": "partial",
   "theorems": [
    "Verif.Str.View.compare_partial",
    "Verif.Str.View.compare_violated_equal",
    "Verif.Str.View.compare_violated_order",
    "Verif.Str.View.parts",
    "Verif.Str.View.compareSubs_spec",
    "Verif.Str.View.startsWith_spec",
    "Verif.Str.View.endsWith_spec",
    "Verif.Str.View.find_spec",
    "Verif.Str.View.rfind_spec",
    "Verif.Str.View.findFirstOf_spec",
    "Verif.Str.View.findFirstNotOf_partial",
    "Verif.Str.View.findFirstNotOf_violated",
    "Verif.Str.View.findLastOf_partial",
    "Verif.Str.View.findLastNotOf_partial",
    "Verif.Str.View.findLast_violated",
    "Verif.Str.View.findLastNotOf_violated"
   ],
   "note": "Violated by the code: the difference of the sizes is converted to int, so views of 4 GiB and of no characters are equal; find_last_of and find_last_not_of read outside of an empty view or from a position beyond the end; with an empty set find_first_not_of answers 0 and find_last_not_of npos (witnesses). Proved for all other inputs."
  },
  {
   "property": "C127",
   "status": "partial",
   "theorems": [
    "Verif.EnumStr.values_partial",
    "Verif.EnumStr.values_violated",
    "Verif.EnumStr.names_partial",
    "Verif.EnumStr.names_short",
    "Verif.EnumStr.names_violated",
    "Verif.EnumStr.to_string_declared",
    "Verif.EnumStr.to_string_flags",
    "Verif.EnumStr.to_string_number",
    "Verif.EnumStr.from_string_names",
    "Verif.EnumStr.from_string_unknown",
    "Verif.EnumStr.from_string_blank",
    "Verif.EnumStr.from_string_number",
    "Verif.EnumStr.from_string_declared",
    "Verif.EnumStr.from_string_sound",
    "Verif.EnumStr.round_trip_partial",
    "Verif.EnumStr.zero_violated",
    "Verif.EnumStr.blanks_violated"
   ],
   "note": "Violated by the code: an initialiser that mentions an enumerator without initialiser gives another value than the compiler; a comma in an initialiser spoils the next name; an undeclared zero is written as the empty text, which is refused; behind a blank inside of the text one character is dropped (\"A B\" is A, \"A xB\" is A|B). Proved for everything else; sums of two enumerators are not modelled."
  },
  {
   "property": "C128",
   "status": "partial",
   "theorems": [
    "Verif.Holder.Unique.unique_partial",
    "Verif.Holder.Unique.move_assign",
    "Verif.Holder.Unique.release_spec",
    "Verif.Holder.Unique.swap_spec",
    "Verif.Holder.Unique.reset_get_violated",
    "Verif.Holder.Unique.reset_reentrant_violated"
   ],
   "note": "Violated by the code: reset deletes before it stores, so p.reset(p.get()) leaves p dangling and a destructor that resets the pointer being reset deletes the object twice (witnesses). Proved for all other histories."
  },
  {
   "property": "C129",
   "status": "proved",
   "theorems": [
    "Verif.Token.Compose.destroyed_exactly",
    "Verif.Token.Compose.drop_possible",
    "Verif.Token.Compose.drop_order",
    "Verif.Token.Compose.builder_once",
    "Verif.Token.Compose.multi_token_order",
    "Verif.Token.Compose.attach_order"
   ],
   "note": "Cleanup functions that themselves use tokens are not modelled."
  },
  {
   "property": "C130",
   "status": "partial",
   "theorems": [
    "Verif.Holder.ObjectPool.destroyed_exactly",
    "Verif.Holder.ObjectPool.collect_spec",
    "Verif.Holder.ObjectPool.collect_eventually_partial",
    "Verif.Holder.ObjectPool.added_twice_violated"
   ],
   "note": "Violated for an object added twice: it is never collected (witness, for any number of calls). Destructors that use the pool and races with the mutex are not modelled."
  },
  {
   "property": "C131",
   "status": "partial",
   "theorems": [
    "Verif.Thread.AsyncCall.result_of_call",
    "Verif.Thread.AsyncCall.call_progress",
    "Verif.Thread.AsyncCall.ready_in_the_end",
    "Verif.Thread.AsyncCall.foreign_exception_violated"
   ],
   "note": "Violated for exceptions not derived from std::exception: the caller gets a broken promise instead (witness). That the executor runs a task at most once is C42."
  },
  {
   "property": "C132",
   "status": "partial",
   "theorems": [
    "Verif.Meta.Bnd.bind_is_substitution",
    "Verif.Meta.Bnd.declared_parameters",
    "Verif.Meta.Bnd.nested_placeholders_not_declared_violated",
    "Verif.Meta.Bnd.rvalue_twice_violated"
   ],
   "note": "Substitution is proved in full. Violated: placeholders inside nested binders are not declared as parameters; a placeholder used twice forwards the same rvalue twice (witnesses)."
  },
  {
   "property": "C133",
   "status": "proved",
   "theorems": [
    "Verif.Meta.Tup.get_spec",
    "Verif.Meta.Tup.concat_spec",
    "Verif.Meta.Tup.reverse_spec",
    "Verif.Meta.Tup.filter_spec"
   ],
   "note": "Items are values; categories of references are not modelled here."
  },
  {
   "property": "C134",
   "status": "partial",
   "theorems": [
    "Verif.Meta.TypeList.list_operations",
    "Verif.Meta.TypeList.indexOf_spec",
    "Verif.Meta.TypeList.indexOf_none",
    "Verif.Meta.TypeList.maxElement_spec",
    "Verif.Meta.TypeList.minElement_spec",
    "Verif.Meta.TypeList.sort_spec",
    "Verif.Meta.TypeList.invoke_spec",
    "Verif.Meta.TypeList.invoke_duplicate_violated"
   ],
   "note": "Lists of types are modelled as lists. A tag registered twice compiles silently and calls an entry other than the first (witness)."
  },
  {
   "property": "C135",
   "status": "partial",
   "theorems": [
    "Verif.Cmd.read_render_partial",
    "Verif.Cmd.handle_render_partial",
    "Verif.Cmd.handle_sound",
    "Verif.Cmd.execute_first",
    "Verif.Cmd.complete_words",
    "Verif.Cmd.complete_argument_partial",
    "Verif.Cmd.optional_list_violated",
    "Verif.Cmd.optional_none_violated",
    "Verif.Cmd.complete_backslash_violated",
    "Verif.Cmd.complete_clears_violated",
    "Verif.Cmd.complete_middle_violated",
    "Verif.Cmd.handle_more"
   ],
   "note": "Not covered: values that cannot be written (empty words; optional lists can never be given, an optional word \"none\" is read as missing: witnesses). Violated for completion: candidates with backslashes, text after the argument, completions of other handlers dropped (witnesses). Handlers run one at a time in the model."
  },
  {
   "property": "C136",
   "status": "partial",
   "theorems": [
    "Verif.Str.from_human_reads",
    "Verif.Str.from_human_only",
    "Verif.Str.to_human",
    "Verif.Str.to_human_exact",
    "Verif.Str.to_human_large_violated",
    "Verif.Str.to_human_space_violated",
    "Verif.Str.from_human_wraps_violated"
   ],
   "note": "Violated: sizes near 2^64 with an allowed error are refused by an exception, a size written with the space is not read, numbers that do not fit wrap (witnesses). The product with the float factor is a parameter below the size."
  },
  {
   "property": "C137",
   "status": "proved",
   "theorems": [
    "Verif.Reader.read_lines",
    "Verif.Reader.lines_exist",
    "Verif.Reader.read_terminated",
    "Verif.Reader.peek_spec",
    "Verif.Reader.read_at_end",
    "Verif.Reader.last_line_end"
   ],
   "note": "A final line end makes no difference (theorem last_line_end)."
  },
  {
   "property": "C138",
   "status": "partial",
   "theorems": [
    "Verif.Rect.valid_spec",
    "Verif.Rect.intersect_spec",
    "Verif.Rect.intersect_valid",
    "Verif.Rect.move_spec",
    "Verif.Rect.ofSize_spec",
    "Verif.Rect.intersects_closed_partial",
    "Verif.Rect.intersects_complete",
    "Verif.Rect.intersects_touching_violated",
    "Verif.Rect.intersects_empty_violated",
    "Verif.Rect.less_spec"
   ],
   "note": "`Intersects` counts the right and bottom edges although the rectangle does not contain them: touching rectangles intersect, with an invalid intersection (witness). Overflow of int not modelled."
  },
  {
   "property": "C139",
   "status": "partial",
   "theorems": [
    "Verif.Time.fromString_dayFirst",
    "Verif.Time.fromString_iso",
    "Verif.Time.fromString_isoShort",
    "Verif.Time.fromString_clock",
    "Verif.Time.fromString_roundtrip_partial",
    "Verif.Time.fromString_now",
    "Verif.Time.durFromString_value",
    "Verif.Time.fromString_refuses",
    "Verif.Time.fromString_dropped_violated",
    "Verif.Time.fromString_offset_violated",
    "Verif.Time.fromString_fraction_violated",
    "Verif.Time.fromString_unchecked_violated",
    "Verif.Time.fromString_year_violated"
   ],
   "note": "Violated: text after the time is dropped, an offset with a sign error, fractions, unchecked fields and years (witnesses)."
  },
  {
   "property": "C140",
   "status": "partial",
   "theorems": [
    "Verif.Locale.three_letters",
    "Verif.Locale.same_code",
    "Verif.Locale.code_order",
    "Verif.Locale.code_roundtrip_partial",
    "Verif.Locale.code_of_number_partial",
    "Verif.Locale.two_letters",
    "Verif.Locale.any_roundtrip_violated",
    "Verif.Locale.code_of_number_violated",
    "Verif.Locale.zero_character_violated",
    "Verif.Locale.code_of_number_exact",
    "Verif.Locale.two_letter_text"
   ],
   "note": "Violated: the code \"any\" prints as an empty text that is refused, a number with bytes above 127 changes, a zero character cuts the text (witnesses)."
  },
  {
   "property": "C141",
   "status": "partial",
   "theorems": [
    "Verif.Text.locale_eq_sym",
    "Verif.Text.locale_eq_partial",
    "Verif.Text.texts_equal",
    "Verif.Text.locale_eq_violated",
    "Verif.Text.locale_eq_trans_violated"
   ],
   "note": "Violated: texts with the same characters but of different byte lengths are not equal although neither is less; equality is not transitive on invalid texts (witnesses)."
  },
  {
   "property": "C142",
   "status": "partial",
   "theorems": [
    "Verif.Locale.strings_are_values",
    "Verif.Locale.builder_reuse_violated",
    "Verif.Locale.tryGet_spec",
    "Verif.Locale.select_spec",
    "Verif.Locale.format_spec",
    "Verif.Locale.builder_concat",
    "Verif.Locale.join_spec"
   ],
   "note": "A builder used after Get throws (Get) or is undefined (AddTranslation) (witness). Deserialize, which writes into the dictionary shared with copies, is not modelled."
  },
  {
   "property": "C143",
   "status": "partial",
   "theorems": [
    "Verif.Holder.Scoped.cleaned_once",
    "Verif.Holder.Scoped.get_spec",
    "Verif.Holder.Scoped.throwing_cleanup_violated",
    "Verif.Holder.Scoped.void_cleaned_once",
    "Verif.Holder.Scoped.shared_is_one",
    "Verif.Holder.Scoped.shared_default_violated"
   ],
   "note": "Violated when a cleanup throws (the handle is cleaned up twice) and for a default-made SharedHolder (null dereference)."
  },
  {
   "property": "C144",
   "status": "proved",
   "theorems": [
    "Verif.Bits.single_bit",
    "Verif.Bits.single_bit_laws",
    "Verif.Bits.reverse_spec"
   ],
   "note": "Bit index at or above the width is undefined in C++ and excluded. Signed types are modelled by their two's complement bits."
  },
  {
   "property": "C145",
   "status": "partial",
   "theorems": [
    "Verif.Log.told_at_most",
    "Verif.Log.told_at_least_partial",
    "Verif.Log.new_message_shown",
    "Verif.Log.repeated_message",
    "Verif.Log.times_ambiguous_violated",
    "Verif.Log.interval_lost_violated",
    "Verif.Log.refused"
   ],
   "note": "Violated: every (n+1)th repeat is counted in no summary, so a summary stands for two different numbers; a message repeated no sooner than its interval is never written again (witnesses). The filter has no lock of its own; threads are not modelled."
  },
  {
   "property": "C146",
   "status": "partial",
   "theorems": [
    "Verif.Log.level_of_name",
    "Verif.Log.logger_follows",
    "Verif.Log.same_name_same_settings_partial",
    "Verif.Log.constructor_level_violated",
    "Verif.Log.constructor_level_not_restored_violated",
    "Verif.Log.names_listed",
    "Verif.Log.written_spec",
    "Verif.Log.registered",
    "Verif.Log.message_reaches_sinks",
    "Verif.Log.call_after_release_violated"
   ],
   "note": "Violated: a level given to the constructor is lost if any setting exists for the name; a sink may be called after its token is released (witnesses)."
  },
  {
   "property": "C147",
   "status": "proved",
   "theorems": [
    "Verif.Regex.matches_range",
    "Verif.Regex.longest_first",
    "Verif.Regex.group_and_refusal"
   ],
   "note": "The semantics of the expressions (digits, classes, alternatives, one group) is given in Regex/Spec; std::regex itself is not modelled."
  },
  {
   "property": "C148",
   "status": "partial",
   "theorems": [
    "Verif.Thread.Posix.constructed",
    "Verif.Thread.Posix.destroyed",
    "Verif.Thread.Posix.running_known",
    "Verif.Thread.Posix.no_signal_after_join",
    "Verif.Thread.Posix.failed_start",
    "Verif.Thread.Posix.self_destruction_violated",
    "Verif.Thread.Posix.cpu_accounted_partial",
    "Verif.Thread.Posix.cpu_lost_violated"
   ],
   "note": "Partial because CPU time is lost when a thread outlives its parent and a thread destroying itself stops the program (both proved by witness); pthread_create failure and pthread_cancel are not modelled; thread 0 stands for a thread the library did not begin."
  },
  {
   "property": "C149",
   "status": "proved",
   "theorems": [
    "Verif.Time.Timespec.deadline_exact",
    "Verif.Time.Timespec.sum_exact",
    "Verif.Time.Timespec.difference_exact",
    "Verif.Time.Timespec.sleep_enough",
    "Verif.Time.Timespec.sleep_exact",
    "Verif.Time.Timespec.sleep_units",
    "Verif.Time.Timespec.least_interval_violated",
    "Verif.Time.Timespec.sleep_negative_violated"
   ],
   "note": "Seconds are bounded by 2^62 so that time_t does not overflow; nanosleep is an oracle that reports the remaining time exactly."
  },
  {
   "property": "C150",
   "status": "partial",
   "theorems": [
    "Verif.Util.Mapper.map_spec",
    "Verif.Util.Mapper.unmap_spec",
    "Verif.Util.Mapper.has_spec",
    "Verif.Util.Mapper.round_trip_partial",
    "Verif.Util.Mapper.policies_round_trip",
    "Verif.Util.Mapper.round_trip_violated"
   ],
   "note": "Values are integers. Partial: the round trip needs disjoint destinations that stand for their own preferred value (violations by witness)."
  },
  {
   "property": "C151",
   "status": "partial",
   "theorems": [
    "Verif.Thread.Priority.set_ok",
    "Verif.Thread.Priority.set_get",
    "Verif.Thread.Priority.restored_partial",
    "Verif.Thread.Priority.half_set_violated",
    "Verif.Thread.Priority.refused_return_violated"
   ],
   "note": "Partial: not after a Set that failed half-way or a refused return (violations by witness). The kernel is modelled by ranges of nice and priority."
  },
  {
   "property": "C152",
   "status": "proved",
   "theorems": [
    "Verif.Diag.AsyncProfiler.not_too_early",
    "Verif.Diag.AsyncProfiler.only_living",
    "Verif.Diag.AsyncProfiler.never_oversleeps",
    "Verif.Diag.AsyncProfiler.destructor_prompt",
    "Verif.Diag.AsyncProfiler.sweep"
   ],
   "note": "The clock stands still between its reading and the beginning of the wait; a name getter that throws is not modelled."
  },
  {
   "property": "C153",
   "status": "partial",
   "theorems": [
    "Verif.Accum.mean_exact",
    "Verif.Accum.deviation_exact",
    "Verif.Accum.passes_through",
    "Verif.Accum.mean_integer_violated",
    "Verif.Accum.mean_integer_partial",
    "Verif.Accum.deviation_integer_nonneg",
    "Verif.Accum.average_exact"
   ],
   "note": "Exact rationals stand for floating types: rounding and overflow are not modelled. Partial: with integer types the mean is only within the range of the values (violation by witness)."
  },
  {
   "property": "C154",
   "status": "partial",
   "theorems": [
    "Verif.Timed.remaining_exact",
    "Verif.Timed.timed_out_iff",
    "Verif.Timed.get_timeout_exact",
    "Verif.Timed.cancelled_iff",
    "Verif.Timed.register_iff",
    "Verif.Timed.sleep_exact",
    "Verif.Timed.sleep_forever_bounded",
    "Verif.Timed.sleep_beyond",
    "Verif.Timed.sleep_zero_violated",
    "Verif.Timed.valid_iff"
   ],
   "note": "Partial: a zero duration gives true on a timed out token (violation by witness). All clock readings within one call agree; no spurious wake-ups; no Reset of the inner token."
  },
  {
   "property": "C155",
   "status": "partial",
   "theorems": [
    "Verif.Builder.build_exact",
    "Verif.Builder.build_reads_back",
    "Verif.Builder.append_bit_exact",
    "Verif.Builder.signed_field_violated",
    "Verif.Builder.full_width_violated"
   ],
   "note": "Partial: not for signed fields nor full-width fields (violations by witness); a signed result type is not modelled."
  },
  {
   "property": "C156",
   "status": "partial",
   "theorems": [
    "Verif.Translit.match_sound",
    "Verif.Translit.match_iff",
    "Verif.Translit.match_in_bounds",
    "Verif.Translit.substring_found",
    "Verif.Translit.match_complete_violated",
    "Verif.Translit.letter_k_violated",
    "Verif.Translit.zero_bytes_violated"
   ],
   "note": "Partial: matches near the end of the text may be missed, and zero bytes are excluded (violations by witness)."
  },
  {
   "property": "C157",
   "status": "partial",
   "theorems": [
    "Verif.Factory.create_exact",
    "Verif.Factory.create_as_exact",
    "Verif.Factory.class_name_exact",
    "Verif.Factory.register_throws_iff",
    "Verif.Factory.round_trip_partial",
    "Verif.Factory.round_trip_violated"
   ],
   "note": "Partial: the round trip holds without a base context only (violation by witness)."
  },
  {
   "property": "C158",
   "status": "partial",
   "theorems": [
    "Verif.Coll.Cast.list_reads",
    "Verif.Coll.Cast.list_reports_partial",
    "Verif.Coll.Cast.dict_reports_partial",
    "Verif.Coll.Cast.set_reports_partial",
    "Verif.Coll.Cast.dict_reads",
    "Verif.Coll.Cast.set_reads",
    "Verif.Coll.Cast.list_diff_cast",
    "Verif.Coll.Cast.dict_diff_cast",
    "Verif.Coll.Cast.set_diff_cast",
    "Verif.Coll.Cast.dict_transactions",
    "Verif.Coll.Cast.null_violated",
    "Verif.Coll.Cast.coarse_cast_violated",
    "Verif.Coll.Cast.foreign_partial"
   ],
   "note": "Partial: the reports for observers that do not call back into the collection; the default back caster denies null pointers that are enumerated, and a cast mapping two elements to one breaks observers of a set (violations by witness)."
  },
  {
   "property": "C159",
   "status": "partial",
   "theorems": [
    "Verif.Signal.Obtain.vector_exact",
    "Verif.Signal.Obtain.vector_op_exact",
    "Verif.Signal.Obtain.set_exact",
    "Verif.Signal.Obtain.value_exact",
    "Verif.Signal.Obtain.void_exact",
    "Verif.Signal.Obtain.nullable_exact",
    "Verif.Signal.Obtain.nullable_violated",
    "Verif.Signal.Obtain.future_exact"
   ],
   "note": "Partial: a null first value of a nullable type is not told apart from no value (nullable_violated); the exception handler of the signal returns normally; one thread at a time."
  },
  {
   "property": "C160",
   "status": "partial",
   "theorems": [
    "Verif.Compress.Train.train_counts",
    "Verif.Compress.Train.finish_counts",
    "Verif.Compress.Train.train_fails",
    "Verif.Compress.Train.finish_fails",
    "Verif.Compress.Train.symbol_recorded",
    "Verif.Compress.Train.compactify_exact",
    "Verif.Compress.Train.sort_irrelevant",
    "Verif.Compress.Train.trained_lookup",
    "Verif.Compress.Train.final_memory_violated",
    "Verif.Compress.Train.train_throws_violated"
   ],
   "note": "Partial: counts and sizes are natural numbers (no overflow of SymbolCount); limits too small for the folded counts make Process/Finish throw (train_throws_violated), and the finished model can exceed the final limit (final_memory_violated)."
  },
  {
   "property": "C161",
   "status": "partial",
   "theorems": [
    "Verif.Enum.ForEach.foreach_exact",
    "Verif.Enum.ForEach.break_consumes",
    "Verif.Enum.ForEach.range_for_exact",
    "Verif.Enum.ForEach.compare_throws",
    "Verif.Enum.ForEach.second_pass_violated",
    "Verif.Enum.ForEach.differs_exact"
   ],
   "note": "Partial: finite enumerators that do not throw, casts and conditions without effects; adapters are single-pass (second_pass_violated)."
  },
  {
   "property": "C162",
   "status": "partial",
   "theorems": [
    "Verif.Diag.Checkpoint.stop_exact",
    "Verif.Diag.Checkpoint.not_started",
    "Verif.Diag.Checkpoint.auto_exact",
    "Verif.Diag.Checkpoint.durations_sum",
    "Verif.Diag.Checkpoint.bandwidth_adds_up",
    "Verif.Diag.Checkpoint.speed_exact",
    "Verif.Diag.Checkpoint.report_at_once_violated"
   ],
   "note": "Partial: calls are atomic (made under the mutex); a report within a millisecond of the last divides by zero (report_at_once_violated); sums below 2^64."
  },
  {
   "property": "C163",
   "status": "partial",
   "theorems": [
    "Verif.Diag.Session.report_exact_partial",
    "Verif.Diag.Session.report_threshold",
    "Verif.Diag.Session.share_le",
    "Verif.Diag.Session.empty_id_violated",
    "Verif.Diag.Session.zero_parent_violated"
   ],
   "note": "Partial: ids are not empty (only the last session with an empty id counts, empty_id_violated), children take no longer than their parent (zero_parent_violated), sums times 100 below 2^64; one thread; the text of a line is modelled by its four fields."
  },
  {
   "property": "C164",
   "status": "partial",
   "theorems": [
    "Verif.Str.CaseCompare.less_exact_partial",
    "Verif.Str.CaseCompare.equals_exact_partial",
    "Verif.Str.CaseCompare.less_order_partial",
    "Verif.Str.CaseCompare.non_ascii_violated"
   ],
   "note": "Partial: ASCII strings; other characters are given to tolower as negative values, which is undefined (non_ascii_violated)."
  },
  {
   "property": "C165",
   "status": "partial",
   "theorems": [
    "Verif.Bytes.Owner.content_exists_partial",
    "Verif.Bytes.Owner.create_content",
    "Verif.Bytes.Owner.slice_content_partial",
    "Verif.Bytes.Owner.content_kept_partial",
    "Verif.Bytes.Owner.assign_content_partial",
    "Verif.Bytes.Owner.write_content_partial",
    "Verif.Bytes.Owner.write_shared_partial",
    "Verif.Bytes.Owner.all_freed_partial",
    "Verif.Bytes.Owner.moved_from_violated",
    "Verif.Bytes.Owner.wrap_violated"
   ],
   "note": "Partial: moved-from owners keep a dangling pointer (moved_from_violated); offset + size below 2^64 (wrap_violated); one thread; storage given from outside with a life assurance is not modelled."
  },
  {
   "property": "C166",
   "status": "proved",
   "theorems": [
    "Verif.Stream.All.readAll_result",
    "Verif.Stream.All.checkedReadAll_result",
    "Verif.Stream.All.readToEnd_result",
    "Verif.Stream.All.writeAll_result",
    "Verif.Stream.All.checkedWriteAll_result",
    "Verif.Stream.All.dead_stops"
   ],
   "note": "For streams that keep the contract of Read and Write (nothing only at the end or when cancelled) and tokens that are not reset meanwhile. ReadToEnd ends on finite streams."
  },
  {
   "property": "C167",
   "status": "partial",
   "theorems": [
    "Verif.Diag.LockProf.report_partial",
    "Verif.Diag.LockProf.silent",
    "Verif.Diag.LockProf.not_overstated_partial",
    "Verif.Diag.LockProf.acquired_since",
    "Verif.Diag.LockProf.nested_violated",
    "Verif.Diag.LockProf.wait_violated"
   ],
   "note": "Partial: the mutex is recursive, and a nested lock restarts the clock (nested_violated: long holds are not reported); a wait on a condition variable with the mutex counts as holding it (wait_violated). Without them exact; with nested locks never more than the truth."
  },
  {
   "property": "C168",
   "status": "partial",
   "theorems": [
    "Verif.Diag.ApiGuards.location_partial",
    "Verif.Diag.ApiGuards.exit_possible",
    "Verif.Diag.ApiGuards.order_violated"
   ],
   "note": "Partial: the text is right if guards are destroyed in the reverse order of their making, as those on the stack are; otherwise the wrong entry is removed (order_violated)."
  },
  {
   "property": "C169",
   "status": "partial",
   "theorems": [
    "Verif.Str.format_places",
    "Verif.Str.roundtrip_partial",
    "Verif.Str.adjacent_lost_violated",
    "Verif.Str.digit_after_violated"
   ],
   "note": "Partial: places next to each other lose values (adjacent_lost_violated), text that begins with a digit or a sign is found too early (digit_after_violated)."
  },
  {
   "property": "C170",
   "status": "partial",
   "theorems": [
    "Verif.Func.function_shares",
    "Verif.Func.lifetime_partial",
    "Verif.Func.referred",
    "Verif.Func.unmade_destroyed_violated"
   ],
   "note": "Partial: if copying the functor throws when a function is made, the destructor of a functor that was never constructed runs (unmade_destroyed_violated): ~IInvokableBase calls it."
  },
  {
   "property": "C171",
   "status": "partial",
   "theorems": [
    "Verif.Pipeline.DataPipe.process_spec",
    "Verif.Pipeline.DataPipe.batch_unique",
    "Verif.Pipeline.DataPipe.reset_all",
    "Verif.Pipeline.DataPipe.end_all_partial"
   ],
   "note": "Partial: stages that give values at EndOfData are not modelled: the consumer handed to EndOfData has its arguments bound in the wrong order (DataPipe.h 57) and a call of it does not compile. Exceptions are not modelled."
  },
  {
   "property": "C172",
   "status": "partial",
   "theorems": [
    "Verif.Util.Dispatch.visit_partial",
    "Verif.Util.Dispatch.visit_inherited",
    "Verif.Util.Dispatch.visit_sound",
    "Verif.Util.Dispatch.ancestor_ignored_violated",
    "Verif.Util.Dispatch.multidispatch_spec",
    "Verif.Util.Dispatch.op_variant_spec",
    "Verif.Util.Dispatch.op_variant_eq"
   ],
   "note": "Partial: a handler for a class between the base and the object's own Visitable class is not called (ancestor_ignored_violated)."
  },
  {
   "property": "C173",
   "status": "partial",
   "theorems": [
    "Verif.Thread.SyncValue.expressions_atomic",
    "Verif.Thread.SyncValue.one_at_a_time",
    "Verif.Thread.SyncValue.goes_on",
    "Verif.Thread.SyncValue.get_then_assign_violated"
   ],
   "note": "Partial: Get followed by an assignment is two expressions, even within one C++ expression, and loses updates (get_then_assign_violated)."
  },
  {
   "property": "C174",
   "status": "partial",
   "theorems": [
    "Verif.Enum.Builder.builder_partial",
    "Verif.Enum.Builder.added_before",
    "Verif.Enum.Builder.added_after_violated"
   ],
   "note": "Partial: an enumerable given before something is added, to the builder or a copy of it, holds invalid iterators (added_after_violated). Without adding afterwards nothing is undefined (added_before)."
  },
  {
   "property": "C175",
   "status": "partial",
   "theorems": [
    "Verif.Num.Checked.overflow_check",
    "Verif.Num.Checked.range2_partial",
    "Verif.Num.Checked.range3_partial",
    "Verif.Num.Checked.range_negative_violated",
    "Verif.Num.Checked.range_unsigned_violated"
   ],
   "note": "The overflow check is complete. Range checks are partial: for non-negative operands only; a negative index passes (range_negative_violated), and mixed signs compare wrapped values (range_unsigned_violated)."
  },
  {
   "property": "C176",
   "status": "partial",
   "theorems": [
    "Verif.Diag.ThreadStat.consume_whole",
    "Verif.Diag.ThreadStat.consume_result",
    "Verif.Diag.ThreadStat.thread_stat_partial",
    "Verif.Diag.ThreadStat.parse_line",
    "Verif.Diag.ThreadStat.fields_fit",
    "Verif.Diag.ThreadStat.rsslim_unlimited_violated",
    "Verif.Diag.ThreadStat.paren_in_name_violated",
    "Verif.Diag.ThreadStat.empty_name_violated",
    "Verif.Diag.ThreadStat.long_name_violated",
    "Verif.Diag.ThreadStat.unsigned_field"
   ],
   "note": "Partial: for names that are not empty, have no ) and fewer than 1024 characters, and numbers that fit s64. Otherwise it fails (paren_in_name_violated, empty_name_violated), overruns its buffer (long_name_violated) or is undefined (rsslim_unlimited_violated: an unlimited RSS limit)."
  },
  {
   "property": "C177",
   "status": "partial",
   "theorems": [
    "Verif.Bytes.CharArray.in_bounds",
    "Verif.Bytes.CharArray.string_stored",
    "Verif.Bytes.CharArray.cstr_stored",
    "Verif.Bytes.CharArray.array_stored",
    "Verif.Bytes.CharArray.same_size",
    "Verif.Bytes.CharArray.unterminated_violated",
    "Verif.Bytes.CharArray.embedded_nul_violated"
   ],
   "note": "Partial: strings with NUL characters are cut silently (embedded_nul_violated), and a full array without a terminator cannot be given as a C string (unterminated_violated)."
  },
  {
   "property": "C178",
   "status": "partial",
   "theorems": [
    "Verif.Thread.Atomics.fetch_add_safe",
    "Verif.Thread.Atomics.fetch_add_fits",
    "Verif.Thread.Atomics.fetch_sub_safe",
    "Verif.Thread.Atomics.fetch_sub_fits",
    "Verif.Thread.Atomics.pre_inc_dec",
    "Verif.Thread.Atomics.wrap_spec",
    "Verif.Thread.Atomics.signed_wrap_violated",
    "Verif.Thread.Atomics.nexts_spec",
    "Verif.Thread.Atomics.nexts_signed",
    "Verif.Thread.Atomics.next_distinct_partial",
    "Verif.Thread.Atomics.next_repeats_violated",
    "Verif.Thread.Atomics.store_once",
    "Verif.Thread.Atomics.store_ends",
    "Verif.Thread.Atomics.spinlock_exclusive",
    "Verif.Thread.Atomics.spinlock_progress"
   ],
   "note": "Partial: for int and wider signed types a wrap makes the result undefined (signed_wrap_violated); a sequence repeats after as many numbers as its type has values (next_repeats_violated)."
  },
  {
   "property": "C179",
   "status": "partial",
   "theorems": [
    "Verif.RefCount.Basic.deleted_once_partial",
    "Verif.RefCount.Basic.last_once_partial",
    "Verif.RefCount.Basic.value_exact_partial",
    "Verif.RefCount.Basic.many_handles_violated"
   ],
   "note": "Partial: while there are fewer than 2^32 handles and references; beyond that the counter wraps (many_handles_violated)."
  },
  {
   "property": "C180",
   "status": "partial",
   "theorems": [
    "Verif.Thread.Sem.never_more",
    "Verif.Thread.Sem.locks_exclusive",
    "Verif.Thread.Sem.failed_wait_takes_nothing",
    "Verif.Thread.Sem.unit_wakes",
    "Verif.Thread.Sem.no_unit_no_wait",
    "Verif.Thread.Sem.interrupted_violated",
    "Verif.Thread.Sem.count_bounded",
    "Verif.Thread.Sem.signal_fails_iff"
   ],
   "note": "Partial: a signal handler makes Wait throw instead of going on waiting (interrupted_violated)."
  },
  {
   "property": "C181",
   "status": "partial",
   "theorems": [
    "Verif.Holder.Alloc.one_place",
    "Verif.Holder.Alloc.own_allocator",
    "Verif.Holder.Alloc.nothing_leaks",
    "Verif.Holder.Alloc.failed_create",
    "Verif.Holder.Alloc.move_assign",
    "Verif.Holder.Alloc.self_move_violated"
   ],
   "note": "Partial: a move to itself loses (destroys) the value (self_move_violated)."
  },
  {
   "property": "C182",
   "status": "partial",
   "theorems": [
    "Verif.Storage.Aligned.alignment_exact",
    "Verif.Storage.Aligned.storage_exact_partial",
    "Verif.Storage.Aligned.overaligned_violated",
    "Verif.Storage.Aligned.simple_alone"
   ],
   "note": "Partial: for alignments above 32 there is no storage (overaligned_violated: it does not compile)."
  },
  {
   "property": "C183",
   "status": "partial",
   "theorems": [
    "Verif.Holder.Erasure.dispatch",
    "Verif.Holder.Erasure.call_exact",
    "Verif.Holder.Erasure.free_exact",
    "Verif.Holder.Erasure.destroyed_once",
    "Verif.Holder.Erasure.moved_only_partial",
    "Verif.Holder.Erasure.copy_violated",
    "Verif.Holder.Erasure.lost_violated"
   ],
   "note": "Partial: copies share the object, so freeing both is undefined (copy_violated); without Free the object is lost (lost_violated)."
  },
  {
   "property": "C184",
   "status": "partial",
   "theorems": [
    "Verif.Thread.Local.own_value",
    "Verif.Thread.Local.running_gets",
    "Verif.Thread.Local.destroyed_with_thread",
    "Verif.Thread.Local.keys_deleted",
    "Verif.Thread.Local.defined_partial",
    "Verif.Thread.Local.destroyed_before_end",
    "Verif.Thread.Local.after_dtor_violated"
   ],
   "note": "Partial: a destructor that runs in the thread after that of the value gets a destroyed value (after_dtor_violated)."
  },
  {
   "property": "C185",
   "status": "partial",
   "theorems": [
    "Verif.Str.Stream.text_written_partial",
    "Verif.Str.Stream.decimal_unique",
    "Verif.Str.Stream.integers_shown",
    "Verif.Str.Stream.unterminated_violated"
   ],
   "note": "Partial: characters given as a pointer must be terminated (unterminated_violated); what snprintf writes for floating point numbers and pointers is a parameter."
  },
  {
   "property": "C186",
   "status": "partial",
   "theorems": [
    "Verif.Scope.Exit.guards_run_once",
    "Verif.Scope.Exit.only_guards",
    "Verif.Scope.Exit.reverse_order",
    "Verif.Scope.Exit.at_block_end",
    "Verif.Scope.Exit.guards_invisible_partial",
    "Verif.Scope.Exit.goes_unique",
    "Verif.Scope.Exit.other_exception_violated"
   ],
   "note": "Partial: if the function of a guard throws something that is not a std::exception, the program ends and outer guards do not run (other_exception_violated)."
  },
  {
   "property": "C187",
   "status": "proved",
   "theorems": [
    "Verif.Array.values_exact",
    "Verif.Array.hist_some",
    "Verif.Array.equal_exact",
    "Verif.Array.less_exact",
    "Verif.Array.order_valid"
   ],
   "note": ""
  },
  {
   "property": "C188",
   "status": "partial",
   "theorems": [
    "Verif.Scope.Locks.sections_exclusive",
    "Verif.Scope.Locks.depth_exact",
    "Verif.Scope.Locks.never_fatal",
    "Verif.Scope.Locks.unlock_refused",
    "Verif.Scope.Locks.waits_for_owner",
    "Verif.Scope.Locks.unlock_frees_partial",
    "Verif.Scope.Locks.nested_unlock_violated"
   ],
   "note": "MutexUnlock frees the mutex only if the thread had locked it once: inside two nested locks it gives back one level and other threads go on waiting (nested_unlock_violated)."
  },
  {
   "property": "C189",
   "status": "proved",
   "theorems": [
    "Verif.Func.Cancellable.not_after_release",
    "Verif.Func.Cancellable.refused_only_after_release",
    "Verif.Func.Cancellable.call_after_release",
    "Verif.Func.Cancellable.transparent",
    "Verif.Func.Cancellable.waits_only_for_others",
    "Verif.Func.Cancellable.one_thread",
    "Verif.Func.Cancellable.never_undef"
   ],
   "note": ""
  },
  {
   "property": "C190",
   "status": "partial",
   "theorems": [
    "Verif.Num.Random.full_period",
    "Verif.Num.Random.period",
    "Verif.Num.Random.digits_period",
    "Verif.Num.Random.below_max",
    "Verif.Num.Random.uniform",
    "Verif.Num.Random.in_range_partial",
    "Verif.Num.Random.reversed_violated",
    "Verif.Num.Random.parity_violated",
    "Verif.Num.Random.range_advances",
    "Verif.Num.Random.range_value"
   ],
   "note": "Proved for minValue <= maxValue; a range the wrong way round gives numbers outside it (reversed_violated). The last binary digits of Next are far from random: even and odd results take turns, and the last k digits repeat after 2^k calls (digits_period, parity_violated)."
  },
  {
   "property": "C191",
   "status": "partial",
   "theorems": [
    "Verif.Util.Fuzzy.fuzzy_exact_partial",
    "Verif.Util.Fuzzy.compare_exact",
    "Verif.Util.Fuzzy.equivalence",
    "Verif.Util.Fuzzy.constructing_violated"
   ],
   "note": "Proved for objects whose construction is complete. Violated during construction or destruction of a base: typeid agrees with a whole object of that class but the distance within the object differs, so a wrong address is used (constructing_violated)."
  },
  {
   "property": "C192",
   "status": "partial",
   "theorems": [
    "Verif.Thread.Finalizer.deleted_once_partial",
    "Verif.Thread.Finalizer.referred_alive_partial",
    "Verif.Thread.Finalizer.all_deleted_partial",
    "Verif.Thread.Finalizer.drains_partial",
    "Verif.Thread.Finalizer.only_executor",
    "Verif.Thread.Finalizer.cleared_violated"
   ],
   "note": "Proved for histories without ClearTasks. Violated when tasks of the executor are cleared, or a threadless executor is destroyed with tasks: the objects whose deletion was queued are never deleted (cleared_violated)."
  },
  {
   "property": "C193",
   "status": "partial",
   "theorems": [
    "Verif.Thread.Interrupt.restored",
    "Verif.Thread.Interrupt.sees",
    "Verif.Thread.Interrupt.masked_partial",
    "Verif.Thread.Interrupt.unmasked_partial",
    "Verif.Thread.Interrupt.signal_violated"
   ],
   "note": "Proved outside of handlers of signals; in a handler scopes do nothing, so code which turned interruption points off may be interrupted (signal_violated)."
  },
  {
   "property": "C194",
   "status": "proved",
   "theorems": [
    "Verif.Thread.Sleep.slept",
    "Verif.Thread.Sleep.slept_ms",
    "Verif.Thread.Sleep.throws",
    "Verif.Thread.Sleep.signals_only",
    "Verif.Thread.Sleep.valid"
   ],
   "note": ""
  },
  {
   "property": "C195",
   "status": "partial",
   "theorems": [
    "Verif.Thread.MutexLock.locked",
    "Verif.Thread.MutexLock.no_reports_within",
    "Verif.Thread.MutexLock.throws",
    "Verif.Thread.MutexLock.returns",
    "Verif.Thread.MutexLock.error_throws",
    "Verif.Thread.MutexLock.report_violated"
   ],
   "note": "An error of a mutex used in a report makes Lock throw though the mutex itself could have been got (report_violated). What else may throw in a report, and the signal to the owner, are not modelled."
  },
  {
   "property": "C196",
   "status": "partial",
   "theorems": [
    "Verif.Util.SysError.named",
    "Verif.Util.SysError.all_named_but_one",
    "Verif.Util.SysError.distinct",
    "Verif.Util.SysError.message_distinct",
    "Verif.Util.SysError.code_told",
    "Verif.Util.SysError.errno_told_partial",
    "Verif.Util.SysError.errno_violated",
    "Verif.Util.SysError.thrown_told",
    "Verif.Util.SysError.thrown_types"
   ],
   "note": "Proved for exceptions made from a number. The constructor which takes errno reads it again after the text is made: if that changes errno, text and code tell different errors (errno_violated)."
  },
  {
   "property": "C197",
   "status": "partial",
   "theorems": [
    "Verif.Util.TypeNames.recompose",
    "Verif.Util.TypeNames.qualified_partial",
    "Verif.Util.TypeNames.unqualified_partial",
    "Verif.Util.TypeNames.within_template_violated",
    "Verif.Util.TypeNames.raw"
   ],
   "note": "Proved for classes not within a template. For a class within a template the outer template becomes part of the class name (within_template_violated)."
  },
  {
   "property": "C198",
   "status": "partial",
   "theorems": [
    "Verif.Log.Message.less_order",
    "Verif.Log.Message.less_iff",
    "Verif.Log.Message.equal_iff",
    "Verif.Log.Message.highlight_violated",
    "Verif.Log.Message.text_partial",
    "Verif.Log.Message.ambiguous_violated",
    "Verif.Log.Message.made"
   ],
   "note": "The order is proved in full. Highlighting is not compared (highlight_violated); a message of no logger that begins with a bracket is shown as that of a logger (ambiguous_violated), else the text is injective."
  }
 ]
}