{"id": "C01", "title": "Channel delivers exactly the sent values, in order", "statement": "At every moment of every execution, the values already handed out by the receiver, followed by the values that are inside the channel (queued, or taken out by a receive that is still running), are exactly the values whose send took effect, in the order in which they took effect: nothing is lost, duplicated, reordered or invented while the receiver is alive.", "quantifier": "every channel capacity, every number of senders and futures, every interleaving of the critical sections of try_send, send (poll/cancel), try_recv, recv and of handle clones and drops", "why_tests_cant": "loom tests explore two or three threads and a few messages; the claim is about all interleavings, all histories and all capacities", "anchors": ["rtic-sync/src/channel.rs: Sender::send_footer, Sender::try_send, Sender::send, Receiver::try_recv, Receiver::recv, Channel::return_free_slot"]}
{"id": "C02", "title": "Channel storage is never shared", "statement": "Every storage slot of the channel is at any time owned by exactly one of: the free pool, one sending operation, one waiting sender that has been promised it, the queue, or the receive in progress; so a send never overwrites an unread value, a receive never reads a slot that is not a completely written value, and the internal queues never overflow.", "quantifier": "every capacity below 256, every interleaving, every cancellation point", "why_tests_cant": "a slot leak or double ownership shows only after a particular cancellation/hand-over order", "anchors": ["rtic-sync/src/channel.rs: Channel::split, Channel::return_free_slot, Sender::send, Sender::send_footer, Channel::read_slot"]}
{"id": "C03", "title": "Channel capacity bound", "statement": "A channel created with capacity N never holds more than N accepted-but-unreceived values, and when the channel is idle and empty again all N slots are available for sending.", "quantifier": "every N and every history", "why_tests_cant": "leaks need particular cancellation histories", "anchors": ["rtic-sync/src/channel.rs: Channel, Sender::is_full, Sender::is_empty"]}
{"id": "C04", "title": "try_send result is truthful", "statement": "try_send never blocks; it returns the value back inside the error; it answers Full only if at the moment of its checks some sender was waiting or no slot was free, and NoReceiver only if the receiver has been dropped; in both error cases the channel is unchanged.", "quantifier": "every channel state and every interleaving inside try_send", "why_tests_cant": "the check and the pop are separate critical sections", "anchors": ["rtic-sync/src/channel.rs: Sender::try_send"]}
{"id": "C05", "title": "No lost wake-up for a waiting receiver", "statement": "Whenever the receiver's recv() future is waiting (returned Pending and has not been re-polled), and there is a value it could receive or all senders are gone, then its waker has been woken since, or some sender is still inside the operation that will wake it.", "quantifier": "every interleaving of registration, check, enqueue and wake", "why_tests_cant": "a lost wake-up needs one exact interleaving", "anchors": ["rtic-sync/src/channel.rs: Receiver::recv, Sender::send_footer, Sender::drop", "rtic-common/src/waker_registration.rs: CriticalSectionWakerRegistration"]}
{"id": "C06", "title": "No lost wake-up and FIFO order for waiting senders", "statement": "A send() future waits only while no slot is free: if a slot is in the free pool no sender is queued. Freed slots are handed to waiting senders in the order in which they started to wait, each handed-over sender has been woken, and a later try_send or send cannot overtake a queued sender.", "quantifier": "every interleaving, every set of waiting senders", "why_tests_cant": "fairness depends on arbitrary queue contents and cancellation orders", "anchors": ["rtic-sync/src/channel.rs: Sender::send, Channel::return_free_slot", "rtic-common/src/wait_queue.rs: DoublyLinkedList"]}
{"id": "C07", "title": "Cancelling a send is safe", "statement": "Dropping a send() future at any point before it completes does not enqueue its value, removes it from the wait queue, and gives a slot that was already promised to it to the next waiting sender (who is woken) or back to the free pool.", "quantifier": "every point of the execution at which the future may be dropped", "why_tests_cant": "cancellation points times queue contents", "anchors": ["rtic-sync/src/channel.rs: Sender::send (dropper)"]}
{"id": "C08", "title": "Closed channel is reported to senders and values returned", "statement": "Once the receiver has been dropped, every try_send and every send() that starts or is re-polled afterwards completes with an error carrying the value; all senders that were waiting are woken.", "quantifier": "every state in which the receiver is dropped", "why_tests_cant": "drop can race any sender", "anchors": ["rtic-sync/src/channel.rs: Receiver::drop, Sender::send, Sender::try_send"]}
{"id": "C09", "title": "NoSender means nothing more will ever arrive", "statement": "If try_recv or recv reports NoSender then all senders have been dropped and the channel contains no more values (so no sent value is missed by a receiver that stops at NoSender).", "quantifier": "every interleaving of the last send and drop with the receive", "why_tests_cant": "the two checks are in different critical sections; needs one exact preemption", "anchors": ["rtic-sync/src/channel.rs: Receiver::try_recv, Receiver::is_closed, Sender::drop"]}
{"id": "C10", "title": "A channel can be reused after both ends are dropped", "statement": "After all senders and the receiver of a channel are dropped, split() gives a working empty channel of capacity N again.", "quantifier": "every history before the re-split", "why_tests_cant": "depends on the complete previous history", "anchors": ["rtic-sync/src/channel.rs: Channel::split, Receiver::drop"]}
{"id": "C11", "title": "Fullness and emptiness queries", "statement": "Sender::is_full is true exactly when no slot is free, Sender::is_empty exactly when all slots are free (nothing sent, promised or in transit), Receiver::is_empty exactly when the next try_recv would find no value, Receiver::is_full exactly when N values are queued.", "quantifier": "every reachable state", "why_tests_cant": "states with promised or in-transit slots are hard to reach in tests", "anchors": ["rtic-sync/src/channel.rs: Sender::is_full, Sender::is_empty, Receiver::is_full, Receiver::is_empty"]}
{"id": "C12", "title": "Wait queue is a FIFO with removal from any position", "statement": "Any sequence of push, pop and remove operations on any number of links behaves like a list to which push appends, from which pop takes the oldest element, and from which remove takes exactly the given element; links, including neighbours of removed ones, stay consistent in both directions.", "quantifier": "every sequence of operations, every number of links, every position", "why_tests_cant": "pointer surgery has unbounded shapes", "anchors": ["rtic-common/src/wait_queue.rs: DoublyLinkedList::pop, push, is_empty, Link::remove_from_list"]}
{"id": "C13", "title": "A link knows whether it has left the queue, and removal is idempotent", "statement": "is_popped is true for a link exactly if it was pushed and has since been popped, or has been removed (removal marks it even if it was never pushed); removing an already popped/removed link (or a link never pushed) changes nothing in the queue, so it is safe for a future to unregister itself at any time.", "quantifier": "every history of the queue", "why_tests_cant": "as above", "anchors": ["rtic-common/src/wait_queue.rs: Link::is_popped, Link::remove_from_list"]}
{"id": "C14", "title": "wait_until does not miss wake-ups", "statement": "If the condition of wait_until becomes true and the notifier then pops and wakes the queue, the waiting future is woken (it is not left pending forever).", "quantifier": "every interleaving of the condition check, the registration and the notifier", "why_tests_cant": "needs one exact preemption between check and registration", "anchors": ["rtic-common/src/wait_queue.rs: DoublyLinkedList::wait_until"]}
{"id": "C15", "title": "Arbiter: at most one access token", "statement": "At any time at most one ExclusiveAccess token exists for an arbiter, whatever mix of access(), try_access(), cancellations and drops has happened.", "quantifier": "every history and interleaving", "why_tests_cant": "mutual exclusion over all interleavings", "anchors": ["rtic-sync/src/arbiter.rs: Arbiter::access, Arbiter::try_access, ExclusiveAccess::drop"]}
{"id": "C16", "title": "Arbiter: first come first served", "statement": "Waiting accesses are granted in the order in which they started to wait; neither access() nor try_access() can overtake a waiting access.", "quantifier": "every number of waiters, every interleaving", "why_tests_cant": "ordering over unbounded waiters", "anchors": ["rtic-sync/src/arbiter.rs: Arbiter::access, Arbiter::try_access", "rtic-common/src/wait_queue.rs"]}
{"id": "C17", "title": "Arbiter: release always leads to a new grant", "statement": "When no token exists, the arbiter is either free (try_access succeeds) or has been handed to a waiting access that has been woken and will obtain a token when polled; cancelling a waiting access never makes the arbiter unusable.", "quantifier": "every history including cancellations", "why_tests_cant": "needs cancellation between grant and poll", "anchors": ["rtic-sync/src/arbiter.rs: Arbiter::access (dropper), ExclusiveAccess::drop"]}
{"id": "C18", "title": "Shared SPI device transaction protocol", "statement": "A transaction on an arbitrated SPI device runs entirely under exclusive bus access; chip-select is driven low before the first operation and, once it was driven low, always driven high again after flushing the bus, also when an operation fails; operations are executed in order and stop at the first failure; the reported error is the first of operation, flush, chip-select errors.", "quantifier": "every list of operations and every pattern of bus/pin failures", "why_tests_cant": "failure patterns times operation lists are unbounded", "anchors": ["rtic-sync/src/arbiter/spi.rs: ArbiterDevice::transaction, BlockingArbiterDevice::transaction", "rtic-sync/src/arbiter/i2c.rs"]}
{"id": "C19", "title": "Signal delivers the latest value at most once", "statement": "A read of a signal returns the most recently written value that has not been cleared or already read; each written value is returned by at most one read; try_read returns None exactly if there was no write since the last read or clear.", "quantifier": "every history of writes, clears and reads", "why_tests_cant": "arbitrary histories", "anchors": ["rtic-sync/src/signal.rs: SignalWriter::write, clear, SignalReader::try_read, take"]}
{"id": "C20", "title": "Signal wait does not miss a write", "statement": "If a signal holds a value while the reader's wait() future is pending, the future's waker has been woken since it was registered or the writer is about to wake it.", "quantifier": "every interleaving of register/take with store/wake", "why_tests_cant": "needs exact interleavings", "anchors": ["rtic-sync/src/signal.rs: SignalReader::wait, SignalWriter::write_inner"]}
{"id": "C21", "title": "wait_fresh only returns values written after it was called", "statement": "wait_fresh() never resolves with a value whose write completed before the call.", "quantifier": "every history and interleaving", "why_tests_cant": "arbitrary histories", "anchors": ["rtic-sync/src/signal.rs: SignalReader::wait_fresh"]}
{"id": "C22", "title": "Watch: changed() reports every latest write", "statement": "After a write to a watch, a subsequent changed() by the reader resolves (with that value or a newer one) unless the reader has already been handed that value or a newer one; try_get always returns the latest written value.", "quantifier": "every interleaving of writes with try_get/changed", "why_tests_cant": "needs a write between the reader's copy and its mark-as-seen", "anchors": ["rtic-sync/src/watch.rs: WatchReader::try_get, WatchReader::changed, WatchReader::mark_seen"]}
{"id": "C23", "title": "Single reader for Signal and Watch", "statement": "At most one live reader of a Signal or Watch exists; try_take_reader fails exactly while one is alive and succeeds again after it is dropped.", "quantifier": "every history of take/drop", "why_tests_cant": "arbitrary histories", "anchors": ["rtic-sync/src/signal.rs: Signal::try_take_reader, SignalReader::drop", "rtic-sync/src/watch.rs: Watch::try_take_reader"]}
{"id": "C24", "title": "Wrapping time comparison is correct within half the range", "statement": "Comparing two tick values that are less than half the counter range apart gives the true chronological order, also across counter wrap-around, and never otherwise (the bound is exact).", "quantifier": "all pairs of tick values of both widths (32 and 64 bit)", "why_tests_cant": "2^64 and 2^128 pairs", "anchors": ["rtic-time/src/timer_queue/tick_type.rs: TimerQueueTicks::compare, is_at_least"]}
{"id": "C25", "title": "A delay never completes early", "statement": "A future returned by delay(d) completes only when at least d ticks (plus one tick of uncertainty when d>0) have elapsed since it was created, for every d up to half the range minus one; the exact limit is proved, durations above it complete immediately.", "quantifier": "all start times, all durations, all poll times", "why_tests_cant": "wrap-around corner cases over the full range", "anchors": ["rtic-time/src/timer_queue.rs: TimerQueue::delay, TimerQueue::timeout_after, Delay::poll", "rtic-time/src/monotonic/embedded_hal_macros.rs"]}
{"id": "C26", "title": "Timer list is sorted and stable", "statement": "For any history of insertions and deletions, the timer queue holds exactly the inserted and not yet removed entries, ordered by release time, entries with equal release time in insertion order; deletion of an absent entry changes nothing; insertion reports exactly whether the head changed.", "quantifier": "every sequence of insert/delete/pop with release times in a half-range window", "why_tests_cant": "unbounded shapes", "anchors": ["rtic-time/src/linked_list.rs: LinkedList::insert, delete, pop_if"]}
{"id": "C27", "title": "Timer interrupt wakes exactly the expired tasks, in order", "statement": "A run of the timer interrupt handler wakes, in release order, every entry whose release time has been reached, no entry whose time has not been reached, and when it returns the hardware compare is set to the earliest remaining entry, which is still in the future, or the timer is disabled because no entry remains.", "quantifier": "every queue content, every advance of time between the handler's clock reads, every insertion or cancellation by preempting tasks", "why_tests_cant": "time may advance between any two reads", "anchors": ["rtic-time/src/timer_queue.rs: TimerQueue::on_monotonic_interrupt"]}
{"id": "C28", "title": "No deadline is missed", "statement": "In every reachable state in which some task waits in the timer queue and the interrupt handler is not running, either the timer interrupt is pending or the hardware compare is armed for a time not later than the earliest release time and not already passed; hence the compare interrupt or the pending interrupt will wake the task.", "quantifier": "every interleaving of polls, drops, handler steps and clock ticks", "why_tests_cant": "needs exact interleavings of insertion, compare programming and time", "anchors": ["rtic-time/src/timer_queue.rs: on_monotonic_interrupt, Delay::poll, Delay::drop"]}
{"id": "C29", "title": "Dropping a delay removes it from the timer queue", "statement": "After a Delay or Timeout future is dropped at any time, no reference to it remains in the timer queue and all other entries stay.", "quantifier": "every state and every interleaving with the interrupt handler", "why_tests_cant": "drop may race the handler", "anchors": ["rtic-time/src/timer_queue.rs: Delay::drop", "rtic-time/src/linked_list.rs: LinkedList::delete"]}
{"id": "C30", "title": "Timeout result", "statement": "A Timeout future returns Ok(v) exactly if the inner future is ready when polled, even when the deadline has also passed; it returns the timeout error only if the inner future was pending and the deadline has passed; the inner future is never polled again after it returned ready.", "quantifier": "every poll history", "why_tests_cant": "arbitrary histories", "anchors": ["rtic-time/src/timer_queue.rs: Timeout::poll"]}
{"id": "C31", "title": "Half-period clock extension is exact", "statement": "If the half-period counter equals the number of half periods elapsed or lags it by at most one unprocessed interrupt, the extended time equals the true elapsed tick count (so time is continuous and never goes backwards across overflow), for every timer width.", "quantifier": "every elapsed time, every timer width, both processed and unprocessed interrupt states", "why_tests_cant": "overflow races need exact timing", "anchors": ["rtic-time/src/half_period_counter.rs: calculate_now"]}
{"id": "C32", "title": "Half-period interrupt bookkeeping stays in sync", "statement": "If every overflow/half-way interrupt is serviced within half a period, the parity assertions in the interrupt handlers never fire and the half-period counter always equals or lags by one the number of half periods elapsed.", "quantifier": "every schedule of interrupt service", "why_tests_cant": "unbounded run lengths", "anchors": ["rtic-monotonics/src/stm32.rs: on_interrupt", "rtic-monotonics/src/nrf/rtc.rs: on_interrupt", "rtic-monotonics/src/imxrt.rs: on_interrupt"]}
{"id": "C33", "title": "Truncated compare registers never cause a late or missed wake-up", "statement": "For backends whose compare register is narrower than the clock, programming the compare for an instant gives an interrupt exactly at that instant if it is within one timer period, and otherwise an interrupt not later than one period from now (at which the queue is re-evaluated); never does the interrupt come only after the instant.", "quantifier": "all instants and current times", "why_tests_cant": "2^64 values and wrap-around cases", "anchors": ["rtic-monotonics/src/stm32.rs: compute_compare_value/set_compare", "rtic-monotonics/src/rp2040.rs: set_compare", "rtic-monotonics/src/nrf/rtc.rs: set_compare"]}
{"id": "C34", "title": "64-bit time from two 32-bit registers is not torn", "statement": "The RP2040/RP235x clock read returns a value that the 64-bit hardware counter really had at some moment during the call.", "quantifier": "every advance of the counter between the register reads", "why_tests_cant": "rollover races", "anchors": ["rtic-monotonics/src/rp2040.rs: now"]}
{"id": "C35", "title": "SysTick clock is monotonic", "statement": "The SysTick time never goes backwards and does not miss a tick whether the wrap is observed by the interrupt or by a reader first.", "quantifier": "every interleaving of wraps, interrupt and reads", "why_tests_cant": "exact races with the COUNTFLAG", "anchors": ["rtic-monotonics/src/systick.rs: now, on_interrupt"]}
{"id": "C36", "title": "spawn succeeds exactly if the task is not already running", "statement": "Spawning a software task returns Ok exactly if no earlier instance of that task is still live, and otherwise returns the arguments unchanged in Err; hence at most one instance of each software task exists, each successful spawn's arguments reach exactly one execution of the task body.", "quantifier": "every interleaving of spawners at different priorities with the dispatcher", "why_tests_cant": "preemption inside spawn", "anchors": ["rtic/src/export/executor.rs: AsyncTaskExecutor::try_allocate, spawn, poll", "rtic-macros/src/codegen/module.rs: spawn"]}
{"id": "C37", "title": "A spawned or woken task is eventually polled", "statement": "After a successful spawn, or after a waker of a live task is invoked, the task is polled again: the pending flag is set and the dispatcher interrupt is pended after it, and every dispatcher run polls each of its tasks whose flag is set; a wake that happens during a poll is not lost.", "quantifier": "every interleaving of wake, spawn and dispatcher", "why_tests_cant": "lost wake-ups need one exact interleaving", "anchors": ["rtic/src/export/executor.rs: poll, set_pending, check_and_clear_pending", "rtic-macros/src/codegen/async_dispatchers.rs"]}
{"id": "C38", "title": "A task future is only polled while it is live", "statement": "The dispatcher polls a task's future only between a completed spawn and its completion: never before the future has been stored, never after it has returned ready.", "quantifier": "every history of spawns, wakes (also by wakers kept after completion) and completions, every preemption", "why_tests_cant": "needs a stale waker and a preemption inside spawn", "anchors": ["rtic/src/export/executor.rs: AsyncTaskExecutor::poll, spawn"]}
{"id": "C39", "title": "A completed task can be spawned again", "statement": "When a task's future completes, its storage is released and the very next spawn succeeds with fresh arguments.", "quantifier": "every history", "why_tests_cant": "arbitrary histories", "anchors": ["rtic/src/export/executor.rs: poll"]}
{"id": "C40", "title": "Computed ceiling is the maximum priority of all users", "statement": "For every accepted application the priority ceiling used for locking a shared resource is exactly the maximum of the priorities of all tasks that use it.", "quantifier": "every application: any number of tasks, resources, priorities and names", "why_tests_cant": "the space of applications is unbounded", "anchors": ["rtic-macros/src/syntax/analyze.rs: app", "rtic-macros/src/codegen/shared_resources.rs: codegen", "rtic-macros/src/syntax/accessors.rs: shared_resource_accesses"]}
{"id": "C41", "title": "lock_free resources are only used at one priority", "statement": "An application is rejected if a lock_free resource is used by tasks of different priorities or by any async task, so lock-free access is race free; applications whose lock_free resources satisfy this are not rejected for it.", "quantifier": "every application", "why_tests_cant": "unbounded", "anchors": ["rtic-macros/src/syntax/analyze.rs: app (lf_hash)"]}
{"id": "C42", "title": "Local resources belong to one task", "statement": "In an accepted application each #[local] resource is used by at most one task and its name is not reused for a declared task-local resource.", "quantifier": "every application", "why_tests_cant": "unbounded", "anchors": ["rtic-macros/src/syntax/analyze.rs: app (lr_hash)"]}
{"id": "C43", "title": "Send and Sync are demanded where needed", "statement": "Every shared resource reachable from a non-zero priority task has its type checked for Send; a resource shared by reference between tasks of different priorities has its type checked for Sync; the inputs of software tasks that may be spawned from another priority are checked for Send. Nothing else is demanded.", "quantifier": "every application", "why_tests_cant": "unbounded", "anchors": ["rtic-macros/src/syntax/analyze.rs: app (send_types, sync_types)"]}
{"id": "C44", "title": "Each software priority has its own dispatcher", "statement": "In an accepted application every non-zero priority used by a software task is served by exactly one dispatcher interrupt, different priorities by different interrupts, no dispatcher is also a hardware task, and every software task is polled by the dispatcher of its own priority; with too few dispatchers compilation fails.", "quantifier": "every application", "why_tests_cant": "unbounded", "anchors": ["rtic-macros/src/analyze.rs: app", "rtic-macros/src/codegen/async_dispatchers.rs", "rtic-macros/src/syntax/check.rs"]}
{"id": "C45", "title": "Resource access validation", "statement": "An application is accepted only if every resource named in a task's resource list is declared, and no resource is accessed both by shared reference and exclusively.", "quantifier": "every application", "why_tests_cant": "unbounded", "anchors": ["rtic-macros/src/syntax/check.rs: app"]}
{"id": "C46", "title": "lock gives mutual exclusion (BASEPRI targets)", "statement": "While a task is inside lock() on a shared resource, no other task that uses this resource runs, for arbitrary nesting of locks and arbitrary interrupt arrivals.", "quantifier": "every application whose ceilings are the maxima, up to 7 priority bits (8: see C48), every nesting of locks, every schedule of interrupts", "why_tests_cant": "all interrupt arrival times", "anchors": ["rtic/src/export/cortex_basepri.rs: lock, run", "rtic-macros/src/codegen/bindings/cortex.rs: impl_mutex"]}
{"id": "C47", "title": "lock restores the masking level", "statement": "After a lock() returns, exactly the interrupts that were enabled before it are enabled again, at every nesting depth, and a task that finishes leaves the masking level as it found it.", "quantifier": "every nesting of locks and preemption; on interrupt-masking targets, as long as no task calls NVIC::mask itself", "why_tests_cant": "as above", "anchors": ["rtic/src/export/cortex_basepri.rs: lock, run", "rtic/src/export/cortex_source_mask.rs: lock"]}
{"id": "C48", "title": "Priority level encoding preserves order", "statement": "For every number of priority bits, the hardware encoding of logical priorities is injective and order-reversing on 1..2^bits, is computed without overflow, stays within the implemented bits, and maps priority zero to 'no masking'.", "quantifier": "all bit widths and priorities", "why_tests_cant": "finite but combined with all configurations; needed as an algebraic law", "anchors": ["rtic/src/export/cortex_common.rs: cortex_logical2hw"]}
{"id": "C49", "title": "lock gives mutual exclusion (interrupt-masking targets)", "statement": "On targets without BASEPRI, while a task is inside lock() on a resource no other interrupt-bound task using this resource runs, for arbitrary nesting and interrupt arrivals.", "quantifier": "every set of interrupts and priorities, every nesting, every schedule", "why_tests_cant": "as above", "anchors": ["rtic/src/export/cortex_source_mask.rs: lock, compute_mask, create_mask, read_mask, set_enable_mask"]}
{"id": "C50", "title": "Interrupt masks contain exactly the right interrupts", "statement": "The mask used for a ceiling contains exactly the interrupts of tasks with priority between 1 and the ceiling, and the mask storage is always large enough for the highest interrupt number used.", "quantifier": "all interrupt number lists, all ceilings", "why_tests_cant": "unbounded lists", "anchors": ["rtic/src/export/cortex_source_mask.rs: create_mask, compute_mask_chunks, Mask::set_bit, compute_mask", "rtic-macros/src/codegen/bindings/cortex.rs"]}
{"id": "C51", "title": "lock gives mutual exclusion (RISC-V ESP32 targets)", "statement": "On ESP32-C3/C6, while a task is inside lock() on a resource no other task using it runs, for arbitrary nesting of locks.", "quantifier": "every nesting and schedule", "why_tests_cant": "needs nested locks with decreasing ceilings plus an interrupt in the inner lock", "anchors": ["rtic/src/export/riscv_esp32c3.rs: lock", "rtic/src/export/riscv_esp32c6.rs: lock"]}
{"id": "C52", "title": "No deadlock: tasks never wait for each other in lock", "statement": "Tasks finish in last-in-first-out order on one stack: the running task always has strictly higher priority than every task it preempted, lock() never blocks, and from every state the running task can run to completion.", "quantifier": "every schedule", "why_tests_cant": "absence of deadlock is a universal statement", "anchors": ["rtic/src/export/cortex_basepri.rs: lock, run"]}
{"id": "C53", "title": "Tasks only start after init has finished and all resources are initialised", "statement": "No task, idle included, runs before init returned and every resource returned by init has been stored; interrupts are disabled during init and enabled only afterwards. Once startup is complete nothing stands in the way of any task: every interrupt bound by a task or used as a dispatcher is enabled with its priority, and idle, or the priority-0 software tasks if there are any, run in thread mode.", "quantifier": "every interrupt arrival during startup", "why_tests_cant": "interrupts may arrive at any instruction", "anchors": ["rtic-macros/src/codegen/main.rs: codegen", "rtic-macros/src/codegen/pre_init.rs", "rtic-macros/src/codegen/post_init.rs"]}
{"id": "C54", "title": "Waker registration keeps exactly the last waker", "statement": "After registering a waker, the next wake wakes it (once), unless another waker was registered in between, in which case the earlier one was woken at that moment; no registered waker is silently dropped.", "quantifier": "every sequence of register and wake", "why_tests_cant": "arbitrary sequences", "anchors": ["rtic-common/src/waker_registration.rs: register, wake"]}
{"id": "C55", "title": "Monotonic interrupt priority is legal and below all hardware tasks", "statement": "The interrupt priority computed for a monotonic timer is always a legal logical priority (1..2^bits, so its hardware encoding does not overflow), and it is strictly below the priority of every hardware task unless a hardware task has priority 1. It is the highest such priority.", "quantifier": "all priority configurations, up to 7 priority bits (8: see C48)", "why_tests_cant": "all configurations", "anchors": ["rtic-monotonics/src/lib.rs: set_monotonic_prio", "rtic-macros/src/codegen/bindings/cortex.rs: async_prio_limit", "rtic-macros/src/analyze.rs: max_async_prio"]}
{"id": "C56", "title": "Dropping a pending SPI transaction releases chip-select", "statement": "If the future of an arbitrated SPI transaction is dropped while it is suspended, the device's chip-select is not left asserted.", "quantifier": "every list of operations and every suspension point", "why_tests_cant": "cancellation points times operation lists", "anchors": ["rtic-sync/src/arbiter/spi.rs: ArbiterDevice::transaction, BlockingArbiterDevice::transaction"]}
{"id": "C57", "title": "LETIMER clock counts ticks", "statement": "The Silabs LETIMER clock read returns the number of timer ticks elapsed and never goes backwards, as long as the half-period interrupts are serviced in time.", "quantifier": "all times", "why_tests_cant": "the first error appears after 256 seconds of running, the backwards jump after 512", "anchors": ["rtic-monotonics/src/silabs/letimer.rs: now", "rtic-time/src/half_period_counter.rs: calculate_now, TimerValue"]}
{"id": "C58", "title": "SysTick clock is current", "statement": "A call of the SysTick clock returns at least the number of ticks that had elapsed when it looked at the hardware, also when it preempts another clock read (as the SysTick interrupt handler does).", "quantifier": "every interleaving of wraps, interrupt and reads", "why_tests_cant": "needs preemption exactly between two instructions of a clock read", "anchors": ["rtic-monotonics/src/systick.rs: now, on_interrupt"]}
{"id": "C59", "title": "lock also excludes tasks bound to core exceptions (interrupt-masking targets)", "statement": "On targets without BASEPRI, while a task is inside lock() on a resource no other task using this resource runs, also when that task is bound to a core exception such as SysTick or PendSV.", "quantifier": "every assignment of tasks to interrupts and exceptions, every schedule", "why_tests_cant": "needs an exception-bound task sharing a resource and an exception arriving inside the lock", "anchors": ["rtic/src/export/cortex_source_mask.rs: lock", "rtic-macros/src/codegen/bindings/cortex.rs: source_masking::impl_mutex, extra_assertions"]}
{"id": "C60", "title": "lock leaves the enable state of other interrupts alone (interrupt-masking targets)", "statement": "An interrupt that is disabled (NVIC::mask) while a lock is held stays disabled after the lock is released, unless it belongs to the lock's mask.", "quantifier": "every mask, every history of enables/disables inside the lock", "why_tests_cant": "depends on which interrupts share a 32-bit enable register with the lock's mask", "anchors": ["rtic/src/export/cortex_source_mask.rs: lock, read_mask, set_enable_mask"]}
{"id": "C61", "title": "local_task tasks stay on their executor", "statement": "A software task marked local_task can be spawned from safe code only by software tasks of the same priority (so polled by the same dispatcher), and every other software task can be spawned from anywhere; hence inputs of local tasks never cross executors and need not be Send.", "quantifier": "every application", "why_tests_cant": "unbounded space of applications", "anchors": ["rtic-macros/src/codegen/module.rs: codegen (local_spawner)", "rtic-macros/src/syntax/analyze.rs: app (send_types)"]}
{"id": "C62", "title": "The macro never runs into an internal error", "statement": "For no input does expansion hit one of the internal expect(UNREACHABLE)s, assert!s or an arithmetic underflow: it yields a program, error messages or the message that a required item is missing.", "quantifier": "every application, accepted or not", "why_tests_cant": "unbounded space of applications", "anchors": ["rtic-macros/src/analyze.rs: app", "rtic-macros/src/syntax/analyze.rs: app", "rtic-macros/src/codegen/module.rs", "rtic-macros/src/codegen/shared_resources_struct.rs"]}
{"id": "C63", "title": "A task is polled only when it was spawned or woken", "statement": "The executor polls a task only in answer to a spawn or a wake of that task: at any time the number of polls of a task is at most the number of spawns and wakes it received, and a task that has not been spawned or woken since its last poll is not polled again.", "quantifier": "every history of spawns, wakes and polls, from any context, at any point of a poll", "why_tests_cant": "all interleavings of wakes with the poll loop", "anchors": ["rtic/src/export/executor.rs: AsyncTaskExecutor::poll, check_and_clear_pending, set_pending", "rtic-macros/src/codegen/async_dispatchers.rs: codegen"]}
{"id": "C64", "title": "Resources of an accepted application are never accessed by two tasks at once", "statement": "For every application the macro accepts (and whose local resources are not named like shared ones), running the generated program: while a task is inside lock() on a shared resource no other task that lists this resource runs inside it too; lock_free resources, local resources and by-reference shared resources are likewise never exclusively accessed by two live tasks; and every declared task is bound to an interrupt the program can serve.", "quantifier": "every accepted application in which no local resource in use is named like a shared one (C40), with up to 7 priority bits (C48), every nesting of locks, every schedule of interrupts, BASEPRI and interrupt-masking targets", "why_tests_cant": "a statement over the composition of macro, run time and interrupt controller, for an unbounded space of applications and schedules", "anchors": ["rtic-macros/src/syntax/analyze.rs: app", "rtic-macros/src/codegen/shared_resources.rs", "rtic-macros/src/codegen/bindings/cortex.rs", "rtic/src/export/cortex_basepri.rs: lock, run", "rtic/src/export/cortex_source_mask.rs: lock"]}
{"id": "C65", "title": "Starting a monotonic configures exactly the requested tick rate", "statement": "Starting a monotonic with a selectable tick rate either panics or makes the timer tick at exactly the requested rate, with a prescaler or reload value the hardware has; and it panics only if no such value exists.", "quantifier": "every timer clock and tick rate, SysTick, STM32, Silabs TIMER and LETIMER, nRF TIMER", "why_tests_cant": "the 2^64 pairs of clock and rate cannot be tried out, and a test needs the hardware", "anchors": ["rtic-monotonics/src/systick.rs: _start", "rtic-monotonics/src/stm32.rs: _start", "rtic-monotonics/src/silabs/timer.rs: _start", "rtic-monotonics/src/nrf/timer.rs: PRESCALER", "rtic-monotonics/src/silabs/letimer.rs: presc"]}
{"id": "C66", "title": "On real timers a delay is woken when due and never early", "statement": "With the compare registers of the supported timers (16, 24 or 32 bits wide, matching at every wrap of the counter; SysTick without one): whenever a waiting delay is due and the handler is not running, the timer interrupt is pending (on the nRF RTC up to two ticks later, on the RP chips up to the duration of set_compare later), the handler then wakes it, and no delay is taken out before its instant.", "quantifier": "every interleaving of the handler, its two-step set_compare, delays and clock ticks, for STM32, Silabs TIMER and RTCC, RP2040/RP235x, nRF RTC and TIMER, i.MX RT, ESP32-C3/C6, SysTick", "why_tests_cant": "depends on ticks and overflows exactly between the instructions of set_compare, and on instants beyond the range of the register", "anchors": ["rtic-time/src/timer_queue.rs: on_monotonic_interrupt", "rtic-monotonics/src/stm32.rs, rp2040.rs, rp235x.rs, imxrt.rs, systick.rs, nrf/rtc.rs, nrf/timer.rs, silabs/timer.rs, silabs/rtcc.rs, esp32c3.rs, esp32c6.rs: set_compare, clear_compare_flag, on_interrupt, enable_timer, disable_timer"]}
{"id": "C67", "title": "The timer handler acknowledges its interrupt and returns", "statement": "The timer interrupt handler terminates (within a number of steps linear in the number of waiting delays, as long as the clock does not advance), and when it has returned the interrupt is not pending any more unless a task pended it or the timer raised a new event meanwhile: no interrupt storm.", "quantifier": "every state of the queue, every interleaving", "why_tests_cant": "needs arbitrary queue lengths and events in the middle of the handler", "anchors": ["rtic-time/src/timer_queue.rs: on_monotonic_interrupt", "rtic-time/src/timer_queue/backend.rs: clear_compare_flag, on_interrupt"]}
{"id": "C68", "title": "A pending future is woken through the waker of its latest poll", "statement": "If a pending wait()/changed()/recv()/wait_until()/send()/access()/delay future was polled several times with different wakers, the waker woken for it is the one of its most recent poll (the contract of Future::poll).", "quantifier": "every history of polls with arbitrary wakers, all interleavings with writers, senders, the receiver, lock holders and the timer handler", "why_tests_cant": "needs executors that change the waker of a task between polls (select/join combinators), in all interleavings", "anchors": ["rtic-sync/src/signal.rs: wait", "rtic-sync/src/watch.rs: changed", "rtic-sync/src/channel.rs: recv, send", "rtic-sync/src/arbiter.rs: access", "rtic-common/src/wait_queue.rs: wait_until", "rtic-time/src/timer_queue.rs: Delay::poll"]}
{"id": "C69", "title": "ESP32: the time read from the system timer is current", "statement": "Whenever ESP32-C3/C6 systimer now() returns, its value lies between the time at which the call began and the time at which it returned, whichever interrupts (including the timer handler, which reads the time too) preempt it, and for as long as the device runs.", "quantifier": "every interleaving of any number of now() calls with counter ticks, every uptime", "why_tests_cant": "needs preemption exactly between reading the two halves, at a wrap of the lower half, or years of uptime", "anchors": ["rtic-monotonics/src/esp32c3.rs: now", "rtic-monotonics/src/esp32c6.rs: now"]}
{"id": "C70", "title": "ESP32: every handler gets its own enabled interrupt line", "statement": "In every application the macro accepts for ESP32-C3/C6, the interrupt of every hardware task and of every dispatcher is enabled on an existing CPU interrupt line, with the priority of its tasks, no two share a line, the handler is exported as that line's handler, and spawning a task pends a software interrupt whose enabled handler polls it.", "quantifier": "every accepted application", "why_tests_cant": "infinitely many applications; the tests of the repo are a few examples with less than four tasks", "anchors": ["rtic-macros/src/codegen/bindings/esp32c3.rs", "rtic-macros/src/codegen/bindings/esp32c6.rs", "rtic/src/export/riscv_esp32c3.rs: enable, pend", "rtic/src/export/riscv_esp32c6.rs: enable, pend"]}
{"id": "C71", "title": "ESP32: an accepted application has no data races", "statement": "For every application the macro accepts for ESP32-C3/C6, running the generated program: while a task is inside lock() on a shared resource, no task that lists the resource runs; and a lock_free or local resource is never accessed by two live tasks.", "quantifier": "every accepted application, every nesting of locks, every schedule of interrupts", "why_tests_cant": "a statement over the composition of macro, run time and interrupt controller, for an unbounded space of applications and schedules", "anchors": ["rtic-macros/src/syntax/analyze.rs: app", "rtic-macros/src/codegen/bindings/esp32c3.rs", "rtic/src/export/riscv_esp32c3.rs: lock, run", "rtic/src/export/riscv_esp32c6.rs: lock, run"]}
{"id": "C72", "title": "RISC-V SLIC: generated dispatchers are exactly as many as needed", "statement": "With the SLIC backends the macro refuses explicit dispatchers and generates one dispatcher for every distinct positive priority of software tasks; the result is the program of the same application with these dispatchers written out, so an application is never refused for want of dispatchers, and every handler is registered with the software interrupt controller exactly once.", "quantifier": "every application", "why_tests_cant": "infinitely many applications", "anchors": ["rtic-macros/src/codegen/bindings/riscv_slic.rs", "rtic-macros/src/preprocess.rs"]}
{"id": "C73", "title": "Channel operations are wait-free", "statement": "Every try_send, every poll or drop of a send future, every drop of a sender, every try_recv and every poll of recv ends after a bounded number of its own critical sections (at most six for senders, four for the receiver), is never blocked in between, and dropping the receiver ends after at most 2*capacity + waiting senders + 2, whatever the other parties do meanwhile. A poll of recv that is not interrupted returns the oldest queued value, NoSender when there is none and no sender, otherwise Pending with the waker registered.", "quantifier": "every reachable state, every interleaving with any number of other senders", "why_tests_cant": "a livelock shows only under particular unbounded interleavings (a drain loop fed by senders, a retry loop)", "anchors": ["rtic-sync/src/channel.rs: try_send, send, Sender::drop, try_recv, recv, Receiver::drop"]}
{"id": "C74", "title": "A task is blocked by at most one critical section of a lower-priority task (BASEPRI targets)", "statement": "From the moment a task is pended until it starts, it waits only for tasks of the same or higher priority and for critical sections (locks with a sufficient ceiling, critical_section::with) of lower-priority tasks; of the latter, only those already entered at the moment it was pended, which all belong to one activation of one task; once they are left none blocks it again, and no task of lower priority is started meanwhile.", "quantifier": "every application with consistent ceilings, and every accepted one in which no local resource in use is named like a shared one (C40), with up to 7 priority bits (C48); every nesting of locks, every schedule of interrupts", "why_tests_cant": "bounded priority inversion is a statement about every interleaving of arbitrarily nested critical sections", "anchors": ["book/en/src/preface.md: bounded priority inversion by a single (named) critical section", "rtic/src/export/cortex_basepri.rs: lock, run"]}
{"id": "C75", "title": "A task is blocked by at most one critical section of a lower-priority task (interrupt-masking targets)", "statement": "The same on targets without BASEPRI: a pended task waits only for tasks of the same or higher priority and for the locks and critical sections of one lower-priority task already entered when it was pended, and no task of lower priority is started meanwhile.", "quantifier": "every application with consistent ceilings, every nesting of locks, every schedule of interrupts, including between two register writes of one lock", "why_tests_cant": "needs interrupts arriving exactly between two register writes of a lock", "anchors": ["book/en/src/preface.md: bounded priority inversion by a single (named) critical section", "rtic/src/export/cortex_source_mask.rs: lock, clear_enable_mask, set_enable_mask"]}
{"id": "C76", "title": "Spawn and wake never wait", "statement": "A call of spawn is over after at most four accesses to shared state of its own and a call of a waker after at most two, whatever all other tasks, interrupt handlers and the dispatcher do meanwhile, and its next access is always possible: neither spins, blocks or retries.", "quantifier": "every state, every interleaving of any number of callers with the dispatcher", "why_tests_cant": "a retry loop or a blocking path shows only under contention at one exact access", "anchors": ["rtic/src/export/executor.rs: try_allocate, spawn, set_pending", "rtic-macros/src/codegen/module.rs", "rtic-macros/src/codegen/async_dispatchers.rs"]}
{"id": "C77", "title": "Async tasks of one priority cannot starve each other", "statement": "From the moment a call that spawned or woke a task has returned until this task is polled, every other task of the same priority is polled at most once, however often it is woken and also if it wakes itself in every poll.", "quantifier": "every list of tasks of the priority, every interleaving of spawns, wakes and dispatcher runs", "why_tests_cant": "starvation shows only in unbounded schedules; the bound must hold for every position of the dispatcher in its list", "anchors": ["rtic-macros/src/codegen/async_dispatchers.rs: dispatcher body", "rtic/src/export/executor.rs: poll, check_and_clear_pending"]}
{"id": "C78", "title": "A task that awaits a delay is polled when the delay has expired", "statement": "If a software task returned Pending while awaiting a delay (delay, delay_until, timeout), then once the instant of the delay has passed the timer interrupt handler is running or pending, or the dispatcher of the task is ready to proceed: the task is never forgotten. When the handler is done, the task is polled within two rounds of its dispatcher, and the delay it awaits then returns Ready.", "quantifier": "every number of tasks, delays and wakers, every clock, every interleaving of clock, compare interrupt, handler, dispatcher, polls and drops of delays, spawns and wakes", "why_tests_cant": "a lost wake-up needs one exact interleaving of the compare interrupt, the handler's wake and the end of a dispatcher round", "anchors": ["rtic-time/src/timer_queue.rs: on_monotonic_interrupt, Delay::poll, Delay::drop", "rtic/src/export/executor.rs: AsyncTaskExecutor", "rtic-macros/src/codegen/module.rs: waker", "rtic-macros/src/codegen/async_dispatchers.rs"]}
{"id": "C79", "title": "A task whose awaited channel, signal or arbiter has become ready is polled", "statement": "If a software task returned Pending while awaiting recv(), send(), Signal::wait()/wait_fresh() or Arbiter::access(), and meanwhile the future has become ready (a value is queued or all senders are gone; a slot was freed for the waiting sender or the receiver is gone; a value was written; the arbiter was handed to the task), then once the operations that made it so and their wakers have returned, the dispatcher of the task is ready to proceed and the task is polled within two rounds of its dispatcher.", "quantifier": "every number of tasks, senders, writers and lock holders, every interleaving of their operations with spawns, wakers and the dispatcher", "why_tests_cant": "a lost wake-up needs one exact interleaving of an operation of another party with the registration of the waker, the flag of the task and the end of a dispatcher round", "anchors": ["rtic-sync/src/channel.rs: send, recv, return_free_slot", "rtic-sync/src/signal.rs: write, wait", "rtic-sync/src/arbiter.rs: access, ExclusiveAccess::drop", "rtic-common/src/waker_registration.rs", "rtic-common/src/wait_queue.rs", "rtic/src/export/executor.rs: AsyncTaskExecutor", "rtic-macros/src/codegen/module.rs: waker", "rtic-macros/src/codegen/async_dispatchers.rs"]}
{"id": "C80", "title": "Waiting futures are never accessed after they are gone", "statement": "A future that waits in an intrusive wait queue (Sender::send, Arbiter::access, DoublyLinkedList::wait_until) may complete or be dropped at any moment and its memory may be reused at once, also by another such future: no operation ever reads or writes its link, its slot variable or the links that pointed to it afterwards; the queue is at all times a consistent doubly linked list of exactly the links of live waiting futures, a freed slot is always written into the variable of a live waiting send, and no history of events is added or removed compared to a plain first-in-first-out list.", "quantifier": "every number of futures, every choice and reuse of addresses, every interleaving of polls, completions, drops, wakes and queue operations", "why_tests_cant": "a dangling link is exercised only if a dropped future, the reuse of its memory and a later pop or removal of a neighbour happen in one exact order, and even then usually goes unnoticed", "anchors": ["rtic-common/src/wait_queue.rs: push, pop, remove_from_list, wait_until", "rtic-sync/src/channel.rs: send, return_free_slot, Receiver::drop", "rtic-sync/src/arbiter.rs: access, ExclusiveAccess::drop", "rtic-common/src/dropper.rs: OnDrop, OnDropWith"]}
{"id": "C81", "title": "Delays are never accessed after they are gone", "statement": "A delay (delay, delay_until, timeout_at, ...) may complete or be dropped at any moment, before or after its expiry, and its memory may be reused at once, also by another delay: neither the timer interrupt handler nor any poll or drop of another delay ever reads or writes it afterwards. The queue of the timer is at all times a consistent linked list of exactly the registered, not yet expired links of live delays in the order of their instants, its search loops end, and no history of events is added or removed compared to a plain sorted list.", "quantifier": "every number of delays, every choice and reuse of addresses, every interleaving of clock, handler, polls, completions and drops", "why_tests_cant": "a dangling link is exercised only if a drop, the reuse of its memory and a handler run happen in one exact order, and even then usually goes unnoticed", "anchors": ["rtic-time/src/timer_queue.rs: Delay::poll, Delay::drop, on_monotonic_interrupt", "rtic-time/src/linked_list.rs: insert, delete, pop_if"]}
{"id": "C82", "title": "A spawned or woken task runs before anything of lower priority", "statement": "When a successful call of spawn, or of the waker of a live task, has returned, in whatever task, interrupt handler or idle it was made: until the spawned (woken) task has been polled (or, if it was being polled when the waker was called, completed), no task of lower priority is started and none makes a step, except inside a critical section (lock or critical_section::with) it had entered before and that blocks the task; and the dispatcher of the task makes less than two rounds over its tasks. In particular spawning a task of higher priority outside critical sections preempts the caller before its next statement.", "quantifier": "every accepted application for a target with BASEPRI and up to 7 priority bits (C48) in which no local resource in use is named like a shared one (C40), every interleaving of interrupts, locks, nested critical sections, spawns and wakers called at any depth of preemption", "why_tests_cant": "needs the composition of the executor flags, the pending bit, interrupt masking and the nesting of handlers at every instruction boundary", "anchors": ["rtic/src/export/executor.rs: AsyncTaskExecutor", "rtic-macros/src/codegen/module.rs: spawn, waker", "rtic-macros/src/codegen/async_dispatchers.rs", "rtic/src/export/cortex_basepri.rs: lock, run", "rtic-macros/src/codegen/bindings/cortex.rs"]}
{"id": "C83", "title": "A task whose delay has expired runs before anything of lower priority", "statement": "In an application with a monotonic, when the instant of a delay that a software task awaits has passed: until the task has been polled, no task of lower priority is started and none makes a step, except inside a critical section it had entered before and that blocks the task; the timer interrupt or something more urgent takes over at once.", "quantifier": "every accepted application for a target with BASEPRI, every timer, every interleaving of clock, timer interrupt, other interrupts, locks, spawns, wakers and operations on delays, at any depth of preemption", "why_tests_cant": "needs the composition of the timer queue, the executors, the interrupt controller and the nesting of handlers at every instruction boundary", "anchors": ["rtic-time/src/timer_queue.rs: Delay::poll, Delay::drop, on_monotonic_interrupt", "rtic-monotonics/src/lib.rs: set_monotonic_prio", "rtic-macros/src/analyze.rs: max_async_prio", "rtic-macros/src/codegen/bindings/cortex.rs: async_prio_limit", "rtic/src/export/executor.rs: AsyncTaskExecutor", "rtic-macros/src/codegen/async_dispatchers.rs", "rtic/src/export/cortex_basepri.rs: lock, run"]}
{"id": "C84", "title": "An application is accepted if and only if it follows the rules", "statement": "The #[app] macro accepts an application exactly if: init, the structs of resources it returns and all functions are there and well-formed, with each argument at most once and within its range; no function name, bound interrupt or dispatcher occurs twice; used resources exist; a shared resource is not used both by reference and exclusively; lock_free resources are used at one priority and not by software tasks; local resources have one user and one declaration; software tasks of priority 0 exclude idle; bound interrupts, dispatchers and exceptions are kept apart; there are enough dispatchers; and the hardware supports the priorities. The order of items and arguments does not matter, no valid application is rejected and no invalid one is accepted. (On ESP32-C6 for up to twelve interrupts, none of them both a dispatcher and bound.)", "quantifier": "every application (any number of items, arguments, resources and dispatchers in any order) and every number of priority bits; Cortex-M, ESP32-C3, ESP32-C6 and RISC-V SLIC", "why_tests_cant": "UI tests show single violations in otherwise valid applications; that the checks together neither miss nor exceed the rules is a statement about all applications", "anchors": ["rtic-macros/src/syntax/parse.rs", "rtic-macros/src/syntax/parse/app.rs: App::parse", "rtic-macros/src/syntax/check.rs: app", "rtic-macros/src/syntax/analyze.rs: app", "rtic-macros/src/codegen/bindings/cortex.rs: architecture_specific_analysis", "rtic-macros/src/codegen/bindings/esp32c3.rs", "rtic-macros/src/codegen/bindings/riscv_slic.rs"]}
{"id": "C85", "title": "Parts switched off by cfg attributes disappear without effect on the rest", "statement": "If tasks, shared or local resources carry #[cfg(..)] attributes, then whichever of them are switched off, an accepted application behaves like the application from which they have been deleted: that one is accepted too; the remaining tasks have the same handlers, priorities, resources and ways to be spawned, and are polled by a dispatcher whose interrupt their spawn pends; remaining resources in use are initialised before interrupts are enabled; they are never accessed by two tasks at once; ceilings, checks of Send and Sync and the priority limit of async drivers are at least as strict; nothing else of the parts is left, and parts that exclude each other do not disturb each other.", "quantifier": "every accepted application, every choice of the parts that exist, every execution", "why_tests_cant": "tests compile one or two combinations of features; the claim is about all combinations and all executions of each", "anchors": ["rtic-macros/src/codegen/module.rs", "rtic-macros/src/codegen/shared_resources.rs", "rtic-macros/src/codegen/shared_resources_struct.rs", "rtic-macros/src/codegen/local_resources_struct.rs", "rtic-macros/src/codegen/hardware_tasks.rs", "rtic-macros/src/codegen/async_dispatchers.rs", "rtic-macros/src/codegen/post_init.rs", "rtic-macros/src/codegen/assertions.rs", "rtic-macros/src/codegen/bindings/cortex.rs: pre_init_enable_interrupts"]}
{"id": "C86", "title": "The generated definitions do not clash", "statement": "The names of the functions, modules, structs and statics that #[app] generates for an accepted application are different from each other and from the user's tasks, resources and interrupts, as long as the user's names are: no two tasks, resources or declared locals ever share a static, an executor or a spawn function through equal names.", "quantifier": "every accepted application (Cortex-M), any texts of its identifiers", "why_tests_cant": "whether two of the built names coincide depends on all pairs of names of arbitrary length; tests use a handful", "anchors": ["rtic-macros/src/codegen/util.rs: mark_internal_name, internal_task_ident, static_shared_resource_ident, static_local_resource_ident, declared_static_local_resource_ident", "rtic-macros/src/codegen/module.rs", "rtic-macros/src/codegen/local_resources.rs", "rtic-macros/src/codegen/shared_resources.rs", "rtic-macros/src/codegen/async_dispatchers.rs", "rtic-macros/src/codegen.rs: app"]}
{"id": "C87", "title": "One stack suffices", "statement": "All tasks run to completion on a single stack: the handlers that have been started and have not yet returned always have strictly falling priorities from the innermost to the outermost. So there are never more of them than distinct priorities (and idle), and the stack they need together is at most the need of idle plus, for each priority, that of the most demanding task of this priority.", "quantifier": "every accepted application, every execution (any number of interrupts in any order, locks and critical sections), every assignment of stack needs to tasks", "why_tests_cant": "the worst case needs one exact nesting of all priorities; that deeper nesting is impossible cannot be observed", "anchors": ["rtic/src/export/cortex_basepri.rs: run, lock", "rtic/src/export/cortex_source_mask.rs: lock", "rtic/src/export/riscv_esp32c3.rs: run, lock", "rtic-macros/src/codegen/hardware_tasks.rs", "rtic-macros/src/codegen/async_dispatchers.rs"]}
{"id": "C88", "title": "Every task has storage that fits its future", "statement": "The static storage generated for a software task holds an executor for exactly the future of this task: it has the size and the alignment of the executor, whatever future the task has and however the compiler lays it out; the executor that spawn, wakers and the dispatcher use lies within it, properly aligned; storing a future never overwrites the flags of the executor; and initially the task counts as not running and not pending. Such storage exists exactly for tasks with at most 15 inputs whose executor needs an alignment of at most 16384 bytes; others do not compile.", "quantifier": "every size and alignment of a future, every layout of the executor the compiler may choose, every address the linker may choose, every number of inputs", "why_tests_cant": "tests compile a few tasks with small futures on one target; the claim is about all futures, layouts and addresses", "anchors": ["rtic/src/export/executor.rs: ExecFn, exec_size, exec_align, exec_new, ExecutorHolder, exec_from_holder, Align", "rtic-macros/src/codegen/util.rs: executor_decl, executor_expr"]}
{"id": "C89", "title": "Operations of the other primitives finish without waiting for anyone", "statement": "Signal::write, clear, a poll of wait or wait_fresh, Watch::write, try_get, a poll of changed, a poll or the drop of a Delay, a poll of DoublyLinkedList::wait_until and every operation of an Arbiter finish after a small fixed number of their own critical sections (at most four), whatever other tasks and interrupts do in between; and in the middle of such an operation there is never a state in which it cannot go on.", "quantifier": "every state, every interleaving with any number of writers, waiters, notifiers, interrupts and clock ticks", "why_tests_cant": "a loop that retries when another task interferes needs an adversarial schedule of unbounded length to be noticed", "anchors": ["rtic-sync/src/signal.rs: write, clear, wait, wait_fresh", "rtic-sync/src/watch.rs: write, try_get, changed", "rtic-sync/src/arbiter.rs: access, try_access, ExclusiveAccess::drop", "rtic-common/src/wait_queue.rs: wait_until", "rtic-time/src/timer_queue.rs: Delay::poll, Delay::drop"]}
{"id": "C90", "title": "Run-time and generated code are for the same target", "statement": "A build with rtic goes on if and only if exactly one *-backend feature is enabled in the whole dependency tree; and then both the run-time (lock, run, pend, interrupt controller) and the code generator of #[app] are compiled for the target of this feature and for no other, in whatever order the build scripts see the features and whatever else is in the environment or enabled on rtic-macros.", "quantifier": "every set of enabled features of rtic and of rtic-macros, every environment and order of its variables", "why_tests_cant": "one build has one set of features; that no combination mixes targets is a statement about all of them", "anchors": ["rtic/build.rs: backends, main", "rtic/Cargo.toml: features", "rtic/src/export.rs", "rtic-macros/build.rs: non_default_features, main", "rtic-macros/src/codegen/bindings.rs", "rtic-macros/src/syntax/backend.rs"]}
{"id": "C91", "title": "A spawned or woken task runs before anything of lower priority, without BASEPRI", "statement": "The same as the property for BASEPRI targets, on targets whose locks disable interrupts one register at a time: when a successful call of spawn, or of the waker of a live task, has returned, no task of lower priority is started and none makes a step until the spawned (woken) task has been polled, except inside a critical section it had entered before and that blocks the task; if there is none, the dispatcher (or something more urgent) takes over at once.", "quantifier": "every application and every accepted app macro input, every execution: any number of tasks, priorities, interrupts at any moment (also between any two register accesses of lock), locks, critical sections, preempted callers", "why_tests_cant": "the claim is about all interleavings of register accesses of lock, flag accesses of executors and interrupt arrivals; the failing schedule needs an interrupt between two adjacent register writes", "anchors": ["rtic/src/export/cortex_source_mask.rs: lock, clear_enable_mask, set_enable_mask", "rtic/src/export/executor.rs", "rtic-macros/src/codegen/async_dispatchers.rs", "rtic-macros/src/codegen/module.rs: spawn, waker", "rtic-macros/src/codegen/bindings/cortex.rs: impl_mutex"]}
{"id": "C92", "title": "A spawned, woken or requested task runs before anything of lower priority, on ESP32-C3/C6", "statement": "The same on ESP32-C3 and C6, whose interrupt lines stay asserted until the dispatcher clears them itself and whose locks write the interrupt threshold: when a successful call of spawn, or of the waker of a live task, has returned, or while a peripheral requests a hardware task, no task of lower priority is started and none makes a step until the task has been polled (the request ends), except inside a critical section it had entered before and that blocks the task; if there is none, the dispatcher (or something more urgent) takes over at once. The dispatcher gets to the task in less than two rounds over its tasks, also if it is preempted between its entry and the write that clears its line.", "quantifier": "every application with consistent ceilings, and every accepted app macro input with a line for each handler (C70) in which no local resource in use is named like a shared one (C40), every execution: any number of tasks, priorities, interrupts at any moment (also between entry and clearing of the line), locks, critical sections, preempted callers", "why_tests_cant": "the claim is about all interleavings of line clearing, flag accesses of executors and interrupt arrivals; a lost request needs a call in one particular gap", "anchors": ["rtic/src/export/riscv_esp32c3.rs: run, lock, pend, unpend", "rtic-macros/src/codegen/bindings/esp32c3.rs: async_entry", "rtic/src/export/executor.rs", "rtic-macros/src/codegen/async_dispatchers.rs", "rtic-macros/src/codegen/module.rs: spawn, waker"]}
{"id": "C93", "title": "Startup on ESP32-C3/C6: nothing before init, every interrupt reaches its own task", "statement": "On ESP32-C3 and C6 too no task runs before init has returned and all resources have been stored, whatever interrupts are asserted during startup; and through the interrupt matrix (mapping of interrupts to CPU lines, priorities of lines, handlers exported by number of the line) every interrupt leads to exactly the task bound to it, or the dispatcher it stands for, on a line with the priority of that task; after startup every task can run.", "quantifier": "every accepted app macro input, every sequence of asserted interrupts at any moment of startup", "why_tests_cant": "mapping, priority, enable bit and export name of all handlers have to agree for every set of tasks; a test checks one application on one chip", "anchors": ["rtic-macros/src/codegen/main.rs", "rtic-macros/src/codegen/pre_init.rs", "rtic-macros/src/codegen/post_init.rs", "rtic-macros/src/codegen/bindings/esp32c3.rs: pre_init_enable_interrupts, handler_config", "rtic-macros/src/codegen/bindings/esp32c6.rs", "rtic/src/export/riscv_esp32c3.rs: enable"]}
{"id": "C94", "title": "A write, a send or the drop of the last sender that has returned has woken the waiting task", "statement": "When Signal::write, Signal::clear, Watch::write, Sender::send or Sender::try_send (with Ok) returns, or the drop of the last Sender ends, the waker that the waiting task registered before has been called since it was registered. This does not depend on the number of values already queued, nor on other writers or senders that are suspended in the middle of their own operations.", "quantifier": "every history of any number of writers or senders and one reader, all interleavings of their critical sections", "why_tests_cant": "a wake that is skipped because another operation is believed to do it is lost only if that other operation is preempted at one particular point, for an unbounded time", "anchors": ["rtic-sync/src/signal.rs: write, clear", "rtic-sync/src/watch.rs: write", "rtic-sync/src/channel.rs: send_footer, Sender::drop", "rtic-common/src/waker_registration.rs: wake, register"]}
{"id": "C95", "title": "In a running application, a task whose awaited future is ready runs before anything of lower priority", "statement": "A task awaits Signal::wait, Watch::changed, Receiver::recv, Sender::send or Arbiter::access in a running application with interrupts, locks and critical sections. When the future has become ready (nobody being in the middle of an operation of the primitive), or as soon as the write or send that makes it ready has returned (whatever other operations are suspended), no task of lower priority is started and none makes a step until the waiting task is polled, except inside a critical section it had entered before and that blocks the task; and the dispatcher polls it in less than two rounds.", "quantifier": "every application with consistent ceilings (BASEPRI targets, up to 7 priority bits, C48), and every accepted app macro input in which no local resource in use is named like a shared one (C40), every execution: operations of any number of tasks on the primitive, preempted between any two of their accesses, interrupts at any moment, locks, critical sections", "why_tests_cant": "the claim is about all interleavings of the accesses of the primitive, of the executors and of the interrupt controller together; each unit test fixes one schedule of one layer", "anchors": ["rtic-sync/src/signal.rs", "rtic-sync/src/watch.rs", "rtic-sync/src/channel.rs", "rtic-sync/src/arbiter.rs", "rtic-common/src/waker_registration.rs", "rtic/src/export/executor.rs", "rtic/src/export/cortex_basepri.rs: run, lock", "rtic-macros/src/codegen/async_dispatchers.rs", "rtic-macros/src/codegen/module.rs: waker"]}
{"id": "C96", "title": "Starting an STM32 monotonic enables and resets exactly its own timer", "statement": "The clock-enable and reset bits used to start a timer are the ones the chip's metadata names for it (names compared up to ASCII case, completely); a timer, register or field that is missing from the metadata is a compile-time error, and one that is there compiles. At run time the clock of the timer is enabled, its reset is asserted after that and released; every other bit of these registers keeps its value and no other register is written, provided no other code writes the same two registers meanwhile (the update is not atomic: a concurrent one would be lost).", "quantifier": "every content of the metadata, every timer name, every previous content of the registers, every interleaving with writes of other code to other registers", "why_tests_cant": "tests run on one chip; the claim is about all tables of names, addresses and bit positions and all register contents", "anchors": ["rtic-monotonics/src/stm32/meta.rs: TimerRcc::lookup, enable, reset, RccBit::lookup, set, field_bit, find_peripheral, streq", "rtic-monotonics/src/stm32.rs: _start"]}
{"id": "C97", "title": "Exactly the documented function signatures are accepted, in the module and in extern blocks", "statement": "The macro accepts a function as init, idle, hardware task or software task exactly if its signature has the documented form (not pub, const, unsafe, generic, variadic; first argument its own context and, except for software tasks, no other; init returns the pair of the shared and the local struct, idle returns !, hardware tasks return nothing, software tasks are async and return nothing or !). Functions declared in an extern block are treated exactly like functions of the module, except that every one of them must carry a task attribute and that a task that returns may not take a 'static context. The generated code is that of the items the module consists of.", "quantifier": "every module: any list of functions, structs, extern blocks and other items, any attributes, signatures and types", "why_tests_cant": "the set of module texts is unbounded; the trybuild tests check a few dozen", "anchors": ["rtic-macros/src/syntax/parse/app.rs: App::parse", "rtic-macros/src/syntax/parse/{init,idle,hardware_task,software_task}.rs", "rtic-macros/src/syntax/parse/util.rs: check_fn_signature, check_foreign_fn_signature, parse_inputs, parse_local_resources, type_is_bottom, type_is_init_return, type_is_unit, attribute_matches", "rtic-macros/src/syntax/parse.rs"]}
{"id": "C98", "title": "References to resources never alias, whatever the tasks keep", "statement": "Of any two references to resources that exist at the same time (from the contexts of init, idle and tasks, kept as long as their lifetimes allow, or given to the closure of lock) and that are to the same resource, both are shared references. Contexts have lifetime 'static exactly for tasks declared with -> !.", "quantifier": "every accepted module that compiles, every execution: starts, ends and repetitions of tasks, references of lifetime 'static stored anywhere for any time, locks", "why_tests_cant": "a test keeps some reference in some place; the claim is about everything safe code can do with the references, for all resource declarations", "anchors": ["rtic-macros/src/codegen/local_resources_struct.rs", "rtic-macros/src/codegen/shared_resources_struct.rs", "rtic-macros/src/codegen/module.rs: codegen", "rtic-macros/src/codegen/software_tasks.rs", "rtic-macros/src/codegen/hardware_tasks.rs", "rtic-macros/src/syntax.rs: Context::runs_once", "rtic/src/export/executor.rs: assert_task_diverges"]}
{"id": "C99", "title": "What is passed to a spawned task outlives it", "statement": "A task that has been spawned and has not ended never refers (through its inputs) to data of a function call that has returned.", "quantifier": "every accepted module, every sequence of calls, returns, spawns and ends of tasks", "why_tests_cant": "a dangling reference shows up only if the spawned task runs after the caller has returned and its stack has been reused", "anchors": ["rtic-macros/src/codegen/module.rs: codegen (spawn)", "rtic/src/export/executor.rs: AsyncTaskExecutor, spawn", "rtic/ui/task-reference-in-spawn.rs"]}
{"id": "C100", "title": "The arguments of the attributes are read as documented, in any order", "statement": "The tokens in the parentheses of #[task], #[idle], #[init] and #[app] are accepted exactly if they are a comma separated list of the documented arguments (binds, priority, shared, local, local_task; device, core, peripherals, dispatchers, backend), each at most once, priorities unsuffixed and at most 255 (not 0 with binds), no resource or interrupt twice in a list, local lists not empty, only declared resources in init, and device present in #[app]. What is read is what is written, with the documented defaults for what is left out; the order of the arguments does not matter; and this is what the analysis works with.", "quantifier": "every stream of tokens, every parser for paths, types and expressions that consumes what it reads", "why_tests_cant": "token streams are unbounded; the trybuild tests check a few dozen", "anchors": ["rtic-macros/src/syntax/parse.rs: init_args, idle_args, task_args", "rtic-macros/src/syntax/parse/util.rs: parse_shared_resources, parse_local_resources, extract_resource_name_ident, filter_attributes", "rtic-macros/src/syntax/parse/app.rs: AppArgs::parse", "rtic-macros/src/syntax/backend"]}
{"id": "C101", "title": "Argument lists are punctuated alike everywhere, and nothing written in them is ignored", "statement": "A comma at the end of an argument list is accepted or refused alike in all attributes; entries of a list are separated by commas; an attribute on a resource, and every argument, has an effect or is refused.", "quantifier": "every stream of tokens", "why_tests_cant": "silently ignored input shows up in no test that does not look for it", "anchors": ["rtic-macros/src/syntax/parse.rs: init_args, idle_args, task_args", "rtic-macros/src/syntax/parse/util.rs: parse_shared_resources, parse_local_resources"]}
{"id": "C102", "title": "A module is accepted exactly if its source follows the documented rules, and its code is that of the rules", "statement": "From the tokens of #[app(..)] and of the attributes, the signatures and the structs of a module: the macro accepts the module exactly if the arguments are written as documented (C100), the functions and extern blocks have the documented forms (C97) and the items obey the rules on resources, priorities, interrupts and dispatchers (C84); the generated code is determined by them, so that the guarantees on generated code hold for every module the macro accepts.", "quantifier": "every list of tokens in #[app(..)], every module, every parser for paths, types and expressions that consumes what it reads; Cortex-M, ESP32-C3, RISC-V SLIC (CLINT and MECALL), and ESP32-C6 for up to twelve interrupts", "why_tests_cant": "modules are unbounded; trybuild checks a few dozen rejected ones, the examples a few dozen accepted ones (all of them are evaluated in the model as well)", "anchors": ["rtic-macros/src/lib.rs: app, mock_app", "rtic-macros/src/syntax.rs: parse2", "rtic-macros/src/syntax/parse.rs: app", "rtic-macros/src/syntax/parse/app.rs: App::parse", "rtic-macros/ui", "rtic/ui", "examples/lm3s6965/examples"]}
{"id": "C103", "title": "Source-masking targets: in a running application, a task whose awaited future is ready runs before anything of lower priority", "statement": "On Cortex-M without BASEPRI, a task awaits Signal::wait, Watch::changed, Receiver::recv, Sender::send or Arbiter::access in a running application with interrupts, locks and critical sections. When the future has become ready, or as soon as the write or send that makes it ready has returned, no task of lower priority is started and none makes a step until the waiting task is polled, except inside a critical section it had entered before and that blocks the task; and the dispatcher polls it in less than two rounds.", "quantifier": "every application and every accepted app macro input on a source-masking target, every execution: operations of any number of tasks on the primitive, preempted between any two of their accesses, interrupts at any moment, locks register by register, critical sections", "why_tests_cant": "the claim is about all interleavings of the accesses of the primitive, of the executors and of the interrupt enable registers together; each unit test fixes one schedule of one layer", "anchors": ["rtic-sync/src/signal.rs", "rtic-sync/src/watch.rs", "rtic-sync/src/channel.rs", "rtic-sync/src/arbiter.rs", "rtic/src/export/executor.rs", "rtic/src/export/cortex_source_mask.rs: lock", "rtic-macros/src/codegen/async_dispatchers.rs", "rtic-macros/src/codegen/module.rs: waker"]}
{"id": "C104", "title": "ESP32-C3/C6: in a running application, a task whose awaited future is ready runs before anything of lower priority", "statement": "On the ESP32-C3 and C6, a task awaits Signal::wait, Watch::changed, Receiver::recv, Sender::send or Arbiter::access in a running application with interrupts, locks and critical sections. When the future has become ready, or as soon as the write or send that makes it ready has returned, no task of lower priority is started and none makes a step until the waiting task is polled, except inside a critical section it had entered before and that blocks the task; and the dispatcher polls it in less than two rounds.", "quantifier": "every application with consistent ceilings, and every accepted app macro input for the ESP32-C3 and C6 with a line for each handler (C70) in which no local resource in use is named like a shared one (C40), every execution: operations of any number of tasks on the primitive, preempted between any two of their accesses, level-triggered interrupts at any moment, locks, critical sections", "why_tests_cant": "the claim is about all interleavings of the accesses of the primitive, of the executors and of the interrupt controller together; each unit test fixes one schedule of one layer", "anchors": ["rtic-sync/src/signal.rs", "rtic-sync/src/watch.rs", "rtic-sync/src/channel.rs", "rtic-sync/src/arbiter.rs", "rtic/src/export/executor.rs", "rtic/src/export/riscv_esp32c3.rs: run, lock", "rtic-macros/src/codegen/bindings/esp32c3.rs: async_entry", "rtic-macros/src/codegen/async_dispatchers.rs", "rtic-macros/src/codegen/module.rs: waker"]}
{"id": "C105", "title": "Source-masking targets: a task whose delay has expired runs before anything of lower priority", "statement": "On Cortex-M without BASEPRI, in an application with a monotonic, when the instant of a delay that a software task awaits has passed: until the task has been polled, no task of lower priority is started and none makes a step, except inside a critical section it had entered before and that blocks the task; the timer interrupt or something more urgent takes over at once.", "quantifier": "every accepted application for a target without BASEPRI, every timer, every interleaving of clock, timer interrupt, other interrupts, locks register by register, spawns, wakers and operations on delays, at any depth of preemption", "why_tests_cant": "needs the composition of the timer queue, the executors, the interrupt enable registers and the nesting of handlers at every instruction boundary", "anchors": ["rtic-time/src/timer_queue.rs: Delay::poll, Delay::drop, on_monotonic_interrupt", "rtic-monotonics/src/lib.rs: set_monotonic_prio", "rtic-macros/src/analyze.rs: max_async_prio", "rtic-macros/src/codegen/bindings/cortex.rs: source_masking, async_prio_limit", "rtic/src/export/executor.rs: AsyncTaskExecutor", "rtic-macros/src/codegen/async_dispatchers.rs", "rtic/src/export/cortex_source_mask.rs: lock"]}
{"id": "C106", "title": "ESP32-C3/C6: a task whose delay has expired runs before anything of lower priority", "statement": "On the ESP32-C3 and C6, in an application with a monotonic, when the instant of a delay that a software task awaits has passed: until the task has been polled, no task of lower priority is started and none makes a step, except inside a critical section it had entered before and that blocks the task; the timer interrupt or something more urgent takes over at once. The timer handler is never entered while it runs, although pend_interrupt calls it like a function.", "quantifier": "every application accepted for the ESP32-C3 or C6, every timer, every interleaving of clock, timer interrupt, calls of pend_interrupt, other interrupts, locks, spawns, wakers and operations on delays, at any depth of preemption", "why_tests_cant": "needs the composition of the timer queue, the executors, the interrupt controller and the nesting of handlers at every instruction boundary", "anchors": ["rtic-time/src/timer_queue.rs: Delay::poll, Delay::drop, on_monotonic_interrupt", "rtic-monotonics/src/esp32c3.rs: _start, pend_interrupt", "rtic-monotonics/src/esp32c6.rs: _start, pend_interrupt", "rtic/src/export/riscv_esp32c3.rs: run, lock", "rtic/src/export/executor.rs: AsyncTaskExecutor", "rtic-macros/src/codegen/async_dispatchers.rs"]}
{"id": "C107", "title": "ESP32-C3/C6: the interrupt line of the monotonic is not given to a task", "statement": "In an application accepted for the ESP32-C3 or C6, no handler of a task or dispatcher is enabled on CPU interrupt line 31, or exported as interrupt31, which the monotonic uses.", "quantifier": "every application accepted for the ESP32-C3 or C6", "why_tests_cant": "the lines depend on the number of dispatchers and hardware tasks; the examples have few", "anchors": ["rtic-macros/src/codegen/bindings/esp32c3.rs: pre_init_enable_interrupts, handler_config", "rtic-macros/src/codegen/bindings/esp32c6.rs: EXTERNAL_INTERRUPTS, pre_init_enable_interrupts, handler_config", "rtic-monotonics/src/esp32c3.rs: _start, esp32c3_systimer_monotonic", "rtic-monotonics/src/esp32c6.rs: _start, esp32c6_systimer_monotonic"]}
{"id": "C108", "title": "Starting a monotonic puts its timer into a known state", "statement": "After the start function of a monotonic has returned, whatever the timer peripheral did before, it runs through all its values with the requested prescaler, overflow and half period raise the interrupt, and counter, flags and the software extension belong together, so that the time read is the number of ticks since the start and the interrupt handler does not panic.", "quantifier": "every state of the peripheral before the start (running or not, any counter value, flags, compare values, interrupt enables, modes), any number of ticks between any two register accesses; STM32 timers, Silabs TIMER and RTCC, i.MX RT GPT, nRF TIMER and RTC", "why_tests_cant": "tests start from a freshly reset peripheral; what a boot loader or driver leaves behind is not tested, nor are ticks between two accesses", "anchors": ["rtic-monotonics/src/stm32.rs: _start", "rtic-monotonics/src/silabs/timer.rs: _start", "rtic-monotonics/src/silabs/rtcc.rs: _start", "rtic-monotonics/src/imxrt.rs: _start", "rtic-monotonics/src/nrf/timer.rs: _start", "rtic-monotonics/src/nrf/rtc.rs: _start"]}
{"id": "C109", "title": "A SysTick monotonic ticks at the requested rate from the start", "statement": "After the start of a SysTick monotonic, whatever SysTick did before, a tick comes at the latest one tick period after the start and then once every period; nothing left over from before the start is counted.", "quantifier": "every state of SysTick before the start, every reload value accepted by the start function, any number of cycles", "why_tests_cant": "the current value of SysTick is unknown after a reset; simulators start it at zero", "anchors": ["rtic-monotonics/src/systick.rs: _start, now, on_interrupt"]}
{"id": "C110", "title": "Acknowledging one interrupt flag of a timer leaves the others", "statement": "When a monotonic clears an interrupt flag of its timer peripheral (the compare flag of delays, the overflow flag, the half-period flag), that flag is cleared, and every other flag of the peripheral that was set stays set, whichever flags the hardware raises meanwhile.", "quantifier": "every value of the flag register, of any width, every flag, any flags raised by the hardware between any two accesses; all timers with a flag register", "why_tests_cant": "a flag that is raised or pending while another one is acknowledged is a matter of single clock cycles", "anchors": ["rtic-monotonics/src/stm32.rs: clear_compare_flag, on_interrupt", "rtic-monotonics/src/imxrt.rs: clear_compare_flag, on_interrupt", "rtic-monotonics/src/silabs: clear_compare_flag, on_interrupt", "rtic-monotonics/src/nrf: clear_compare_flag, on_interrupt", "rtic-monotonics/src/rp2040.rs: clear_compare_flag", "rtic-monotonics/src/rp235x.rs: clear_compare_flag", "rtic-monotonics/src/esp32c3.rs: clear_compare_flag", "rtic-monotonics/src/esp32c6.rs: clear_compare_flag"]}
{"id": "C111", "title": "Channels, arbiters, signals, watches and wait queues have no data races", "statement": "In every execution any two accesses to the same non-atomic memory of a channel, arbiter, signal, watch or wait queue (buffers, queues, wakers, list links in the futures of waiters, the guarded value), one of them a write, are ordered by happens-before, even if the senders, receivers, waiters and notifiers run on different cores and the only synchronisation is that of the critical sections: relaxed atomics order nothing.", "quantifier": "every execution of any length, any number of senders, receivers, waiters and writers each on a thread of its own, any capacity, cancellation and drops at any point", "why_tests_cant": "a data race is undefined behaviour that need not show, and no test run enumerates the interleavings", "anchors": ["rtic-sync/src/channel.rs", "rtic-sync/src/arbiter.rs", "rtic-sync/src/signal.rs", "rtic-sync/src/watch.rs", "rtic-common/src/wait_queue.rs"]}
{"id": "C112", "title": "The timer queue has no data race with delays on other cores", "statement": "In every execution the accesses to the link of a delay by the delay itself (creation, insertion, drop) and by the timer interrupt and other delays (walking the list, popping) are ordered by happens-before if one of them is a write, even if the delay is used on another core than the one that runs the timer interrupt.", "quantifier": "every execution of any length, any number of delays, every instant and tick width, drops at any point", "why_tests_cant": "a data race is undefined behaviour that need not show, and no test run enumerates the interleavings", "anchors": ["rtic-time/src/timer_queue.rs: Delay::poll, Delay::drop, on_monotonic_interrupt", "rtic-time/src/linked_list.rs: insert, delete, pop_if"]}
{"id": "C113", "title": "The future that spawn stores is visible to the dispatcher that polls it", "statement": "The storing of a future by spawn happens-before its first poll, and its last poll happens-before the storing of the next one, by the memory orderings of the executor's flags alone, whichever cores spawner, wakers and dispatcher run on.", "quantifier": "every execution of any length, any number of tasks, spawners and wakers, any assignment of them to cores", "why_tests_cant": "missing orderings are invisible on strongly ordered and single-core test machines", "anchors": ["rtic/src/export/executor.rs: try_allocate, spawn, set_pending, check_and_clear_pending, poll"]}
{"id": "C114", "title": "Polling a delay does not enable interrupts", "statement": "Polling a delay (also by hand) inside a critical section or in init leaves interrupts disabled: no task starts before the critical section ends or init has returned and its resources are in place.", "quantifier": "every nesting of interrupts, critical sections and polls of delays, in every order, at any depth; every backend", "why_tests_cant": "the examples poll delays in tasks with interrupts enabled only, and an interrupt must be pending at that moment", "anchors": ["rtic-time/src/timer_queue.rs: Delay::poll", "rtic-monotonics/src/esp32c3.rs: pend_interrupt", "rtic-monotonics/src/esp32c6.rs: pend_interrupt", "rtic-monotonics/src/stm32.rs: pend_interrupt", "rtic-macros/src/codegen/pre_init.rs", "rtic-macros/src/codegen/post_init.rs"]}
{"id": "C115", "title": "One make_channel! gives out the ends of its channel at most once", "statement": "However often, from however many tasks or cores one make_channel! is executed, at most one execution returns a sender and a receiver of its static channel; every later one panics, and none panics unless another one has got past the check.", "quantifier": "every number of callers and calls, every interleaving of their accesses", "why_tests_cant": "two calls must meet inside the macro", "anchors": ["rtic-sync/src/channel.rs: make_channel"]}
{"id": "C116", "title": "ESP32-C3/C6: arming the system timer", "statement": "After set_compare(t), whatever state the timer was in, the comparator fires once when the counter that now() reads shows t, its interrupt is enabled and the counter counts; meanwhile the counter is not stopped and never is a mixture of two instants compared; no instant makes it panic.", "quantifier": "every instant, every state of the registers, interruption after any number of register accesses; every reset value of the registers that suits", "why_tests_cant": "register writes that start from the reset value cancel each other, which depends on values not in the code", "anchors": ["rtic-monotonics/src/esp32c3.rs: _start, set_compare", "rtic-monotonics/src/esp32c6.rs: _start, set_compare"]}
