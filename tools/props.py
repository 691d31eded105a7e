#!/usr/bin/env python3
# Generates properties.jsonl (kept in the repo so that the list is edited in one place).
import json
P=[]
def p(title, statement, quantifier, why, anchors):
    P.append(dict(id="C%02d"%(len(P)+1), title=title, statement=statement, quantifier=quantifier, why_tests_cant=why, anchors=anchors))
CH="rtic-sync/src/channel.rs"
p("Channel delivers exactly the sent values, in order",
  "At every moment of every execution, the values already handed out by the receiver, followed by the values that are inside the channel (queued, or taken out by a receive that is still running), are exactly the values whose send took effect, in the order in which they took effect: nothing is lost, duplicated, reordered or invented while the receiver is alive.",
  "every channel capacity, every number of senders and futures, every interleaving of the critical sections of try_send, send (poll/cancel), try_recv, recv and of handle clones and drops",
  "loom tests explore two or three threads and a few messages; the claim is about all interleavings, all histories and all capacities",
  [CH+": Sender::send_footer, Sender::try_send, Sender::send, Receiver::try_recv, Receiver::recv, Channel::return_free_slot"])
p("Channel storage is never shared",
  "Every storage slot of the channel is at any time owned by exactly one of: the free pool, one sending operation, one waiting sender that has been promised it, the queue, or the receive in progress; so a send never overwrites an unread value, a receive never reads a slot that is not a completely written value, and the internal queues never overflow.",
  "every capacity below 256, every interleaving, every cancellation point",
  "a slot leak or double ownership shows only after a particular cancellation/hand-over order",
  [CH+": Channel::split, Channel::return_free_slot, Sender::send, Sender::send_footer, Channel::read_slot"])
p("Channel capacity bound",
  "A channel created with capacity N never holds more than N accepted-but-unreceived values, and when the channel is idle and empty again all N slots are available for sending.",
  "every N and every history",
  "leaks need particular cancellation histories", [CH+": Channel, Sender::is_full, Sender::is_empty"])
p("try_send result is truthful",
  "try_send never blocks; it returns the value back inside the error; it answers Full only if at the moment of its checks some sender was waiting or no slot was free, and NoReceiver only if the receiver has been dropped; in both error cases the channel is unchanged.",
  "every channel state and every interleaving inside try_send", "the check and the pop are separate critical sections",
  [CH+": Sender::try_send"])
p("No lost wake-up for a waiting receiver",
  "Whenever the receiver's recv() future is waiting (returned Pending and has not been re-polled), and there is a value it could receive or all senders are gone, then its waker has been woken since, or some sender is still inside the operation that will wake it.",
  "every interleaving of registration, check, enqueue and wake", "a lost wake-up needs one exact interleaving",
  [CH+": Receiver::recv, Sender::send_footer, Sender::drop", "rtic-common/src/waker_registration.rs: CriticalSectionWakerRegistration"])
p("No lost wake-up and FIFO order for waiting senders",
  "A send() future waits only while no slot is free: if a slot is in the free pool no sender is queued. Freed slots are handed to waiting senders in the order in which they started to wait, each handed-over sender has been woken, and a later try_send or send cannot overtake a queued sender.",
  "every interleaving, every set of waiting senders", "fairness depends on arbitrary queue contents and cancellation orders",
  [CH+": Sender::send, Channel::return_free_slot", "rtic-common/src/wait_queue.rs: DoublyLinkedList"])
p("Cancelling a send is safe",
  "Dropping a send() future at any point before it completes does not enqueue its value, removes it from the wait queue, and gives a slot that was already promised to it to the next waiting sender (who is woken) or back to the free pool.",
  "every point of the execution at which the future may be dropped", "cancellation points times queue contents",
  [CH+": Sender::send (dropper)"])
p("Closed channel is reported to senders and values returned",
  "Once the receiver has been dropped, every try_send and every send() that starts or is re-polled afterwards completes with an error carrying the value; all senders that were waiting are woken.",
  "every state in which the receiver is dropped", "drop can race any sender", [CH+": Receiver::drop, Sender::send, Sender::try_send"])
p("NoSender means nothing more will ever arrive",
  "If try_recv or recv reports NoSender then all senders have been dropped and the channel contains no more values (so no sent value is missed by a receiver that stops at NoSender).",
  "every interleaving of the last send and drop with the receive", "the two checks are in different critical sections; needs one exact preemption",
  [CH+": Receiver::try_recv, Receiver::is_closed, Sender::drop"])
p("A channel can be reused after both ends are dropped",
  "After all senders and the receiver of a channel are dropped, split() gives a working empty channel of capacity N again.",
  "every history before the re-split", "depends on the complete previous history", [CH+": Channel::split, Receiver::drop"])
p("Fullness and emptiness queries",
  "Sender::is_full is true exactly when no slot is free, Sender::is_empty exactly when all slots are free (nothing sent, promised or in transit), Receiver::is_empty exactly when the next try_recv would find no value, Receiver::is_full exactly when N values are queued.",
  "every reachable state", "states with promised or in-transit slots are hard to reach in tests",
  [CH+": Sender::is_full, Sender::is_empty, Receiver::is_full, Receiver::is_empty"])
WQ="rtic-common/src/wait_queue.rs"
p("Wait queue is a FIFO with removal from any position",
  "Any sequence of push, pop and remove operations on any number of links behaves like a list to which push appends, from which pop takes the oldest element, and from which remove takes exactly the given element; links, including neighbours of removed ones, stay consistent in both directions.",
  "every sequence of operations, every number of links, every position", "pointer surgery has unbounded shapes",
  [WQ+": DoublyLinkedList::pop, push, is_empty, Link::remove_from_list"])
p("A link knows whether it has left the queue, and removal is idempotent",
  "is_popped is true for a link exactly if it was pushed and has since been popped, or has been removed (removal marks it even if it was never pushed); removing an already popped/removed link (or a link never pushed) changes nothing in the queue, so it is safe for a future to unregister itself at any time.",
  "every history of the queue", "as above", [WQ+": Link::is_popped, Link::remove_from_list"])
p("wait_until does not miss wake-ups",
  "If the condition of wait_until becomes true and the notifier then pops and wakes the queue, the waiting future is woken (it is not left pending forever).",
  "every interleaving of the condition check, the registration and the notifier", "needs one exact preemption between check and registration",
  [WQ+": DoublyLinkedList::wait_until"])
AR="rtic-sync/src/arbiter.rs"
p("Arbiter: at most one access token",
  "At any time at most one ExclusiveAccess token exists for an arbiter, whatever mix of access(), try_access(), cancellations and drops has happened.",
  "every history and interleaving", "mutual exclusion over all interleavings", [AR+": Arbiter::access, Arbiter::try_access, ExclusiveAccess::drop"])
p("Arbiter: first come first served",
  "Waiting accesses are granted in the order in which they started to wait; neither access() nor try_access() can overtake a waiting access.",
  "every number of waiters, every interleaving", "ordering over unbounded waiters", [AR+": Arbiter::access, Arbiter::try_access", WQ])
p("Arbiter: release always leads to a new grant",
  "When no token exists, the arbiter is either free (try_access succeeds) or has been handed to a waiting access that has been woken and will obtain a token when polled; cancelling a waiting access never makes the arbiter unusable.",
  "every history including cancellations", "needs cancellation between grant and poll", [AR+": Arbiter::access (dropper), ExclusiveAccess::drop"])
p("Shared SPI device transaction protocol",
  "A transaction on an arbitrated SPI device runs entirely under exclusive bus access; chip-select is driven low before the first operation and, once it was driven low, always driven high again after flushing the bus, also when an operation fails; operations are executed in order and stop at the first failure; the reported error is the first of operation, flush, chip-select errors.",
  "every list of operations and every pattern of bus/pin failures", "failure patterns times operation lists are unbounded",
  ["rtic-sync/src/arbiter/spi.rs: ArbiterDevice::transaction, BlockingArbiterDevice::transaction", "rtic-sync/src/arbiter/i2c.rs"])
SG="rtic-sync/src/signal.rs"; WA="rtic-sync/src/watch.rs"
p("Signal delivers the latest value at most once",
  "A read of a signal returns the most recently written value that has not been cleared or already read; each written value is returned by at most one read; try_read returns None exactly if there was no write since the last read or clear.",
  "every history of writes, clears and reads", "arbitrary histories", [SG+": SignalWriter::write, clear, SignalReader::try_read, take"])
p("Signal wait does not miss a write",
  "If a signal holds a value while the reader's wait() future is pending, the future's waker has been woken since it was registered or the writer is about to wake it.",
  "every interleaving of register/take with store/wake", "needs exact interleavings", [SG+": SignalReader::wait, SignalWriter::write_inner"])
p("wait_fresh only returns values written after it was called",
  "wait_fresh() never resolves with a value whose write completed before the call.",
  "every history and interleaving", "arbitrary histories", [SG+": SignalReader::wait_fresh"])
p("Watch: changed() reports every latest write",
  "After a write to a watch, a subsequent changed() by the reader resolves (with that value or a newer one) unless the reader has already been handed that value or a newer one; try_get always returns the latest written value.",
  "every interleaving of writes with try_get/changed", "needs a write between the reader's copy and its mark-as-seen", [WA+": WatchReader::try_get, WatchReader::changed, WatchReader::mark_seen"])
p("Single reader for Signal and Watch",
  "At most one live reader of a Signal or Watch exists; try_take_reader fails exactly while one is alive and succeeds again after it is dropped.",
  "every history of take/drop", "arbitrary histories", [SG+": Signal::try_take_reader, SignalReader::drop", WA+": Watch::try_take_reader"])
TQ="rtic-time/src/timer_queue.rs"; TT="rtic-time/src/timer_queue/tick_type.rs"; LL="rtic-time/src/linked_list.rs"
p("Wrapping time comparison is correct within half the range",
  "Comparing two tick values that are less than half the counter range apart gives the true chronological order, also across counter wrap-around, and never otherwise (the bound is exact).",
  "all pairs of tick values of both widths (32 and 64 bit)", "2^64 and 2^128 pairs", [TT+": TimerQueueTicks::compare, is_at_least"])
p("A delay never completes early",
  "A future returned by delay(d) completes only when at least d ticks (plus one tick of uncertainty when d>0) have elapsed since it was created, for every d up to half the range minus one; the exact limit is proved, durations above it complete immediately.",
  "all start times, all durations, all poll times", "wrap-around corner cases over the full range", [TQ+": TimerQueue::delay, TimerQueue::timeout_after, Delay::poll", "rtic-time/src/monotonic/embedded_hal_macros.rs"])
p("Timer list is sorted and stable",
  "For any history of insertions and deletions, the timer queue holds exactly the inserted and not yet removed entries, ordered by release time, entries with equal release time in insertion order; deletion of an absent entry changes nothing; insertion reports exactly whether the head changed.",
  "every sequence of insert/delete/pop with release times in a half-range window", "unbounded shapes", [LL+": LinkedList::insert, delete, pop_if"])
p("Timer interrupt wakes exactly the expired tasks, in order",
  "A run of the timer interrupt handler wakes, in release order, every entry whose release time has been reached, no entry whose time has not been reached, and when it returns the hardware compare is set to the earliest remaining entry, which is still in the future, or the timer is disabled because no entry remains.",
  "every queue content, every advance of time between the handler's clock reads, every insertion or cancellation by preempting tasks", "time may advance between any two reads",
  [TQ+": TimerQueue::on_monotonic_interrupt"])
p("No deadline is missed",
  "In every reachable state in which some task waits in the timer queue and the interrupt handler is not running, either the timer interrupt is pending or the hardware compare is armed for a time not later than the earliest release time and not already passed; hence the compare interrupt or the pending interrupt will wake the task.",
  "every interleaving of polls, drops, handler steps and clock ticks", "needs exact interleavings of insertion, compare programming and time", [TQ+": on_monotonic_interrupt, Delay::poll, Delay::drop"])
p("Dropping a delay removes it from the timer queue",
  "After a Delay or Timeout future is dropped at any time, no reference to it remains in the timer queue and all other entries stay.",
  "every state and every interleaving with the interrupt handler", "drop may race the handler", [TQ+": Delay::drop", LL+": LinkedList::delete"])
p("Timeout result",
  "A Timeout future returns Ok(v) exactly if the inner future is ready when polled, even when the deadline has also passed; it returns the timeout error only if the inner future was pending and the deadline has passed; the inner future is never polled again after it returned ready.",
  "every poll history", "arbitrary histories", [TQ+": Timeout::poll"])
HP="rtic-time/src/half_period_counter.rs"
p("Half-period clock extension is exact",
  "If the half-period counter equals the number of half periods elapsed or lags it by at most one unprocessed interrupt, the extended time equals the true elapsed tick count (so time is continuous and never goes backwards across overflow), for every timer width.",
  "every elapsed time, every timer width, both processed and unprocessed interrupt states", "overflow races need exact timing", [HP+": calculate_now"])
p("Half-period interrupt bookkeeping stays in sync",
  "If every overflow/half-way interrupt is serviced within half a period, the parity assertions in the interrupt handlers never fire and the half-period counter always equals or lags by one the number of half periods elapsed.",
  "every schedule of interrupt service", "unbounded run lengths", ["rtic-monotonics/src/stm32.rs: on_interrupt", "rtic-monotonics/src/nrf/rtc.rs: on_interrupt", "rtic-monotonics/src/imxrt.rs: on_interrupt"])
p("Truncated compare registers never cause a late or missed wake-up",
  "For backends whose compare register is narrower than the clock, programming the compare for an instant gives an interrupt exactly at that instant if it is within one timer period, and otherwise an interrupt not later than one period from now (at which the queue is re-evaluated); never does the interrupt come only after the instant.",
  "all instants and current times", "2^64 values and wrap-around cases", ["rtic-monotonics/src/stm32.rs: compute_compare_value/set_compare", "rtic-monotonics/src/rp2040.rs: set_compare", "rtic-monotonics/src/nrf/rtc.rs: set_compare"])
p("64-bit time from two 32-bit registers is not torn",
  "The RP2040/RP235x clock read returns a value that the 64-bit hardware counter really had at some moment during the call.",
  "every advance of the counter between the register reads", "rollover races", ["rtic-monotonics/src/rp2040.rs: now"])
p("SysTick clock is monotonic",
  "The SysTick time never goes backwards and does not miss a tick whether the wrap is observed by the interrupt or by a reader first.",
  "every interleaving of wraps, interrupt and reads", "exact races with the COUNTFLAG", ["rtic-monotonics/src/systick.rs: now, on_interrupt"])
EX="rtic/src/export/executor.rs"; MO="rtic-macros/src/codegen/module.rs"
p("spawn succeeds exactly if the task is not already running",
  "Spawning a software task returns Ok exactly if no earlier instance of that task is still live, and otherwise returns the arguments unchanged in Err; hence at most one instance of each software task exists, each successful spawn's arguments reach exactly one execution of the task body.",
  "every interleaving of spawners at different priorities with the dispatcher", "preemption inside spawn", [EX+": AsyncTaskExecutor::try_allocate, spawn, poll", MO+": spawn"])
p("A spawned or woken task is eventually polled",
  "After a successful spawn, or after a waker of a live task is invoked, the task is polled again: the pending flag is set and the dispatcher interrupt is pended after it, and every dispatcher run polls each of its tasks whose flag is set; a wake that happens during a poll is not lost.",
  "every interleaving of wake, spawn and dispatcher", "lost wake-ups need one exact interleaving", [EX+": poll, set_pending, check_and_clear_pending", "rtic-macros/src/codegen/async_dispatchers.rs"])
p("A task future is only polled while it is live",
  "The dispatcher polls a task's future only between a completed spawn and its completion: never before the future has been stored, never after it has returned ready.",
  "every history of spawns, wakes (also by wakers kept after completion) and completions, every preemption", "needs a stale waker and a preemption inside spawn", [EX+": AsyncTaskExecutor::poll, spawn"])
p("A completed task can be spawned again",
  "When a task's future completes, its storage is released and the very next spawn succeeds with fresh arguments.",
  "every history", "arbitrary histories", [EX+": poll"])
AN="rtic-macros/src/syntax/analyze.rs"
p("Computed ceiling is the maximum priority of all users",
  "For every accepted application the priority ceiling used for locking a shared resource is exactly the maximum of the priorities of all tasks that use it.",
  "every application: any number of tasks, resources, priorities and names", "the space of applications is unbounded", [AN+": app", "rtic-macros/src/codegen/shared_resources.rs: codegen", "rtic-macros/src/syntax/accessors.rs: shared_resource_accesses"])
p("lock_free resources are only used at one priority",
  "An application is rejected if a lock_free resource is used by tasks of different priorities or by any async task, so lock-free access is race free; applications whose lock_free resources satisfy this are not rejected for it.",
  "every application", "unbounded", [AN+": app (lf_hash)"])
p("Local resources belong to one task",
  "In an accepted application each #[local] resource is used by at most one task and its name is not reused for a declared task-local resource.",
  "every application", "unbounded", [AN+": app (lr_hash)"])
p("Send and Sync are demanded where needed",
  "Every shared resource reachable from a non-zero priority task has its type checked for Send; a resource shared by reference between tasks of different priorities has its type checked for Sync; the inputs of software tasks that may be spawned from another priority are checked for Send. Nothing else is demanded.",
  "every application", "unbounded", [AN+": app (send_types, sync_types)"])
p("Each software priority has its own dispatcher",
  "In an accepted application every non-zero priority used by a software task is served by exactly one dispatcher interrupt, different priorities by different interrupts, no dispatcher is also a hardware task, and every software task is polled by the dispatcher of its own priority; with too few dispatchers compilation fails.",
  "every application", "unbounded", ["rtic-macros/src/analyze.rs: app", "rtic-macros/src/codegen/async_dispatchers.rs", "rtic-macros/src/syntax/check.rs"])
p("Resource access validation",
  "An application is accepted only if every resource named in a task's resource list is declared, and no resource is accessed both by shared reference and exclusively.",
  "every application", "unbounded", ["rtic-macros/src/syntax/check.rs: app"])
BP="rtic/src/export/cortex_basepri.rs"
p("lock gives mutual exclusion (BASEPRI targets)",
  "While a task is inside lock() on a shared resource, no other task that uses this resource runs, for arbitrary nesting of locks and arbitrary interrupt arrivals.",
  "every application whose ceilings are the maxima, up to 7 priority bits (8: see C48), every nesting of locks, every schedule of interrupts", "all interrupt arrival times", [BP+": lock, run", "rtic-macros/src/codegen/bindings/cortex.rs: impl_mutex"])
p("lock restores the masking level",
  "After a lock() returns, exactly the interrupts that were enabled before it are enabled again, at every nesting depth, and a task that finishes leaves the masking level as it found it.",
  "every nesting of locks and preemption; on interrupt-masking targets, as long as no task calls NVIC::mask itself", "as above", [BP+": lock, run", "rtic/src/export/cortex_source_mask.rs: lock"])
p("Priority level encoding preserves order",
  "For every number of priority bits, the hardware encoding of logical priorities is injective and order-reversing on 1..2^bits, is computed without overflow, stays within the implemented bits, and maps priority zero to 'no masking'.",
  "all bit widths and priorities", "finite but combined with all configurations; needed as an algebraic law", ["rtic/src/export/cortex_common.rs: cortex_logical2hw"])
p("lock gives mutual exclusion (interrupt-masking targets)",
  "On targets without BASEPRI, while a task is inside lock() on a resource no other interrupt-bound task using this resource runs, for arbitrary nesting and interrupt arrivals.",
  "every set of interrupts and priorities, every nesting, every schedule", "as above", ["rtic/src/export/cortex_source_mask.rs: lock, compute_mask, create_mask, read_mask, set_enable_mask"])
p("Interrupt masks contain exactly the right interrupts",
  "The mask used for a ceiling contains exactly the interrupts of tasks with priority between 1 and the ceiling, and the mask storage is always large enough for the highest interrupt number used.",
  "all interrupt number lists, all ceilings", "unbounded lists", ["rtic/src/export/cortex_source_mask.rs: create_mask, compute_mask_chunks, Mask::set_bit, compute_mask", "rtic-macros/src/codegen/bindings/cortex.rs"])
p("lock gives mutual exclusion (RISC-V ESP32 targets)",
  "On ESP32-C3/C6, while a task is inside lock() on a resource no other task using it runs, for arbitrary nesting of locks.",
  "every nesting and schedule", "needs nested locks with decreasing ceilings plus an interrupt in the inner lock", ["rtic/src/export/riscv_esp32c3.rs: lock", "rtic/src/export/riscv_esp32c6.rs: lock"])
p("No deadlock: tasks never wait for each other in lock",
  "Tasks finish in last-in-first-out order on one stack: the running task always has strictly higher priority than every task it preempted, lock() never blocks, and from every state the running task can run to completion.",
  "every schedule", "absence of deadlock is a universal statement", [BP+": lock, run"])
p("Tasks only start after init has finished and all resources are initialised",
  "No task, idle included, runs before init returned and every resource returned by init has been stored; interrupts are disabled during init and enabled only afterwards. Once startup is complete nothing stands in the way of any task: every interrupt bound by a task or used as a dispatcher is enabled with its priority, and idle, or the priority-0 software tasks if there are any, run in thread mode.",
  "every interrupt arrival during startup", "interrupts may arrive at any instruction", ["rtic-macros/src/codegen/main.rs: codegen", "rtic-macros/src/codegen/pre_init.rs", "rtic-macros/src/codegen/post_init.rs"])
p("Waker registration keeps exactly the last waker",
  "After registering a waker, the next wake wakes it (once), unless another waker was registered in between, in which case the earlier one was woken at that moment; no registered waker is silently dropped.",
  "every sequence of register and wake", "arbitrary sequences", ["rtic-common/src/waker_registration.rs: register, wake"])
p("Monotonic interrupt priority is legal and below all hardware tasks",
  "The interrupt priority computed for a monotonic timer is always a legal logical priority (1..2^bits, so its hardware encoding does not overflow), and it is strictly below the priority of every hardware task unless a hardware task has priority 1. It is the highest such priority.",
  "all priority configurations, up to 7 priority bits (8: see C48)", "all configurations", ["rtic-monotonics/src/lib.rs: set_monotonic_prio", "rtic-macros/src/codegen/bindings/cortex.rs: async_prio_limit", "rtic-macros/src/analyze.rs: max_async_prio"])
p("Dropping a pending SPI transaction releases chip-select",
  "If the future of an arbitrated SPI transaction is dropped while it is suspended, the device's chip-select is not left asserted.",
  "every list of operations and every suspension point", "cancellation points times operation lists", ["rtic-sync/src/arbiter/spi.rs: ArbiterDevice::transaction, BlockingArbiterDevice::transaction"])
p("LETIMER clock counts ticks",
  "The Silabs LETIMER clock read returns the number of timer ticks elapsed and never goes backwards, as long as the half-period interrupts are serviced in time.",
  "all times", "the first error appears after 256 seconds of running, the backwards jump after 512", ["rtic-monotonics/src/silabs/letimer.rs: now", "rtic-time/src/half_period_counter.rs: calculate_now, TimerValue"])
p("SysTick clock is current",
  "A call of the SysTick clock returns at least the number of ticks that had elapsed when it looked at the hardware, also when it preempts another clock read (as the SysTick interrupt handler does).",
  "every interleaving of wraps, interrupt and reads", "needs preemption exactly between two instructions of a clock read", ["rtic-monotonics/src/systick.rs: now, on_interrupt"])
p("lock also excludes tasks bound to core exceptions (interrupt-masking targets)",
  "On targets without BASEPRI, while a task is inside lock() on a resource no other task using this resource runs, also when that task is bound to a core exception such as SysTick or PendSV.",
  "every assignment of tasks to interrupts and exceptions, every schedule", "needs an exception-bound task sharing a resource and an exception arriving inside the lock", ["rtic/src/export/cortex_source_mask.rs: lock", "rtic-macros/src/codegen/bindings/cortex.rs: source_masking::impl_mutex, extra_assertions"])
p("lock leaves the enable state of other interrupts alone (interrupt-masking targets)",
  "An interrupt that is disabled (NVIC::mask) while a lock is held stays disabled after the lock is released, unless it belongs to the lock's mask.",
  "every mask, every history of enables/disables inside the lock", "depends on which interrupts share a 32-bit enable register with the lock's mask", ["rtic/src/export/cortex_source_mask.rs: lock, read_mask, set_enable_mask"])
p("local_task tasks stay on their executor",
  "A software task marked local_task can be spawned from safe code only by software tasks of the same priority (so polled by the same dispatcher), and every other software task can be spawned from anywhere; hence inputs of local tasks never cross executors and need not be Send.",
  "every application", "unbounded space of applications",
  ["rtic-macros/src/codegen/module.rs: codegen (local_spawner)", "rtic-macros/src/syntax/analyze.rs: app (send_types)"])
p("The macro never runs into an internal error",
  "For no input does expansion hit one of the internal expect(UNREACHABLE)s, assert!s or an arithmetic underflow: it yields a program, error messages or the message that a required item is missing.",
  "every application, accepted or not", "unbounded space of applications",
  ["rtic-macros/src/analyze.rs: app", "rtic-macros/src/syntax/analyze.rs: app", "rtic-macros/src/codegen/module.rs", "rtic-macros/src/codegen/shared_resources_struct.rs"])
p("A task is polled only when it was spawned or woken",
  "The executor polls a task only in answer to a spawn or a wake of that task: at any time the number of polls of a task is at most the number of spawns and wakes it received, and a task that has not been spawned or woken since its last poll is not polled again.",
  "every history of spawns, wakes and polls, from any context, at any point of a poll", "all interleavings of wakes with the poll loop",
  ["rtic/src/export/executor.rs: AsyncTaskExecutor::poll, check_and_clear_pending, set_pending", "rtic-macros/src/codegen/async_dispatchers.rs: codegen"])
p("Resources of an accepted application are never accessed by two tasks at once",
  "For every application the macro accepts (and whose local resources are not named like shared ones), running the generated program: while a task is inside lock() on a shared resource no other task that lists this resource runs inside it too; lock_free resources, local resources and by-reference shared resources are likewise never exclusively accessed by two live tasks; and every declared task is bound to an interrupt the program can serve.",
  "every accepted application in which no local resource in use is named like a shared one (C40), with up to 7 priority bits (C48), every nesting of locks, every schedule of interrupts, BASEPRI and interrupt-masking targets", "a statement over the composition of macro, run time and interrupt controller, for an unbounded space of applications and schedules",
  ["rtic-macros/src/syntax/analyze.rs: app", "rtic-macros/src/codegen/shared_resources.rs", "rtic-macros/src/codegen/bindings/cortex.rs", "rtic/src/export/cortex_basepri.rs: lock, run", "rtic/src/export/cortex_source_mask.rs: lock"])
p("Starting a monotonic configures exactly the requested tick rate",
  "Starting a monotonic with a selectable tick rate either panics or makes the timer tick at exactly the requested rate, with a prescaler or reload value the hardware has; and it panics only if no such value exists.",
  "every timer clock and tick rate, SysTick, STM32, Silabs TIMER and LETIMER, nRF TIMER", "the 2^64 pairs of clock and rate cannot be tried out, and a test needs the hardware",
  ["rtic-monotonics/src/systick.rs: _start", "rtic-monotonics/src/stm32.rs: _start", "rtic-monotonics/src/silabs/timer.rs: _start", "rtic-monotonics/src/nrf/timer.rs: PRESCALER", "rtic-monotonics/src/silabs/letimer.rs: presc"])
p("On real timers a delay is woken when due and never early",
  "With the compare registers of the supported timers (16, 24 or 32 bits wide, matching at every wrap of the counter; SysTick without one): whenever a waiting delay is due and the handler is not running, the timer interrupt is pending (on the nRF RTC up to two ticks later, on the RP chips up to the duration of set_compare later), the handler then wakes it, and no delay is taken out before its instant.",
  "every interleaving of the handler, its two-step set_compare, delays and clock ticks, for STM32, Silabs TIMER and RTCC, RP2040/RP235x, nRF RTC and TIMER, i.MX RT, ESP32-C3/C6, SysTick", "depends on ticks and overflows exactly between the instructions of set_compare, and on instants beyond the range of the register",
  ["rtic-time/src/timer_queue.rs: on_monotonic_interrupt", "rtic-monotonics/src/stm32.rs, rp2040.rs, rp235x.rs, imxrt.rs, systick.rs, nrf/rtc.rs, nrf/timer.rs, silabs/timer.rs, silabs/rtcc.rs, esp32c3.rs, esp32c6.rs: set_compare, clear_compare_flag, on_interrupt, enable_timer, disable_timer"])
p("The timer handler acknowledges its interrupt and returns",
  "The timer interrupt handler terminates (within a number of steps linear in the number of waiting delays, as long as the clock does not advance), and when it has returned the interrupt is not pending any more unless a task pended it or the timer raised a new event meanwhile: no interrupt storm.",
  "every state of the queue, every interleaving", "needs arbitrary queue lengths and events in the middle of the handler",
  ["rtic-time/src/timer_queue.rs: on_monotonic_interrupt", "rtic-time/src/timer_queue/backend.rs: clear_compare_flag, on_interrupt"])
p("A pending future is woken through the waker of its latest poll",
  "If a pending wait()/changed()/recv()/wait_until()/send()/access()/delay future was polled several times with different wakers, the waker woken for it is the one of its most recent poll (the contract of Future::poll).",
  "every history of polls with arbitrary wakers, all interleavings with writers, senders, the receiver, lock holders and the timer handler", "needs executors that change the waker of a task between polls (select/join combinators), in all interleavings",
  ["rtic-sync/src/signal.rs: wait", "rtic-sync/src/watch.rs: changed", "rtic-sync/src/channel.rs: recv, send", "rtic-sync/src/arbiter.rs: access", "rtic-common/src/wait_queue.rs: wait_until", "rtic-time/src/timer_queue.rs: Delay::poll"])

p("ESP32: the time read from the system timer is current",
  "Whenever ESP32-C3/C6 systimer now() returns, its value lies between the time at which the call began and the time at which it returned, whichever interrupts (including the timer handler, which reads the time too) preempt it, and for as long as the device runs.",
  "every interleaving of any number of now() calls with counter ticks, every uptime", "needs preemption exactly between reading the two halves, at a wrap of the lower half, or years of uptime",
  ["rtic-monotonics/src/esp32c3.rs: now", "rtic-monotonics/src/esp32c6.rs: now"])
p("ESP32: every handler gets its own enabled interrupt line",
  "In every application the macro accepts for ESP32-C3/C6, the interrupt of every hardware task and of every dispatcher is enabled on an existing CPU interrupt line, with the priority of its tasks, no two share a line, the handler is exported as that line's handler, and spawning a task pends a software interrupt whose enabled handler polls it.",
  "every accepted application", "infinitely many applications; the tests of the repo are a few examples with less than four tasks",
  ["rtic-macros/src/codegen/bindings/esp32c3.rs", "rtic-macros/src/codegen/bindings/esp32c6.rs", "rtic/src/export/riscv_esp32c3.rs: enable, pend", "rtic/src/export/riscv_esp32c6.rs: enable, pend"])
p("ESP32: an accepted application has no data races",
  "For every application the macro accepts for ESP32-C3/C6, running the generated program: while a task is inside lock() on a shared resource, no task that lists the resource runs; and a lock_free or local resource is never accessed by two live tasks.",
  "every accepted application, every nesting of locks, every schedule of interrupts", "a statement over the composition of macro, run time and interrupt controller, for an unbounded space of applications and schedules",
  ["rtic-macros/src/syntax/analyze.rs: app", "rtic-macros/src/codegen/bindings/esp32c3.rs", "rtic/src/export/riscv_esp32c3.rs: lock, run", "rtic/src/export/riscv_esp32c6.rs: lock, run"])
p("RISC-V SLIC: generated dispatchers are exactly as many as needed",
  "With the SLIC backends the macro refuses explicit dispatchers and generates one dispatcher for every distinct positive priority of software tasks; the result is the program of the same application with these dispatchers written out, so an application is never refused for want of dispatchers, and every handler is registered with the software interrupt controller exactly once.",
  "every application", "infinitely many applications",
  ["rtic-macros/src/codegen/bindings/riscv_slic.rs", "rtic-macros/src/preprocess.rs"])

p("Channel operations are wait-free",
  "Every try_send, every poll or drop of a send future, every drop of a sender, every try_recv and every poll of recv ends after a bounded number of its own critical sections (at most six for senders, four for the receiver), is never blocked in between, and dropping the receiver ends after at most 2*capacity + waiting senders + 2, whatever the other parties do meanwhile. A poll of recv that is not interrupted returns the oldest queued value, NoSender when there is none and no sender, otherwise Pending with the waker registered.",
  "every reachable state, every interleaving with any number of other senders", "a livelock shows only under particular unbounded interleavings (a drain loop fed by senders, a retry loop)",
  ["rtic-sync/src/channel.rs: try_send, send, Sender::drop, try_recv, recv, Receiver::drop"])

p("A task is blocked by at most one critical section of a lower-priority task (BASEPRI targets)",
  "From the moment a task is pended until it starts, it waits only for tasks of the same or higher priority and for critical sections (locks with a sufficient ceiling, critical_section::with) of lower-priority tasks; of the latter, only those already entered at the moment it was pended, which all belong to one activation of one task; once they are left none blocks it again, and no task of lower priority is started meanwhile.",
  "every application with consistent ceilings, and every accepted one in which no local resource in use is named like a shared one (C40), with up to 7 priority bits (C48); every nesting of locks, every schedule of interrupts", "bounded priority inversion is a statement about every interleaving of arbitrarily nested critical sections",
  ["book/en/src/preface.md: bounded priority inversion by a single (named) critical section", "rtic/src/export/cortex_basepri.rs: lock, run"])
p("A task is blocked by at most one critical section of a lower-priority task (interrupt-masking targets)",
  "The same on targets without BASEPRI: a pended task waits only for tasks of the same or higher priority and for the locks and critical sections of one lower-priority task already entered when it was pended, and no task of lower priority is started meanwhile.",
  "every application with consistent ceilings, every nesting of locks, every schedule of interrupts, including between two register writes of one lock", "needs interrupts arriving exactly between two register writes of a lock",
  ["book/en/src/preface.md: bounded priority inversion by a single (named) critical section", "rtic/src/export/cortex_source_mask.rs: lock, clear_enable_mask, set_enable_mask"])

p("Spawn and wake never wait",
  "A call of spawn is over after at most four accesses to shared state of its own and a call of a waker after at most two, whatever all other tasks, interrupt handlers and the dispatcher do meanwhile, and its next access is always possible: neither spins, blocks or retries.",
  "every state, every interleaving of any number of callers with the dispatcher",
  "a retry loop or a blocking path shows only under contention at one exact access",
  ["rtic/src/export/executor.rs: try_allocate, spawn, set_pending", "rtic-macros/src/codegen/module.rs", "rtic-macros/src/codegen/async_dispatchers.rs"])
p("Async tasks of one priority cannot starve each other",
  "From the moment a call that spawned or woke a task has returned until this task is polled, every other task of the same priority is polled at most once, however often it is woken and also if it wakes itself in every poll.",
  "every list of tasks of the priority, every interleaving of spawns, wakes and dispatcher runs",
  "starvation shows only in unbounded schedules; the bound must hold for every position of the dispatcher in its list",
  ["rtic-macros/src/codegen/async_dispatchers.rs: dispatcher body", "rtic/src/export/executor.rs: poll, check_and_clear_pending"])

p("A task that awaits a delay is polled when the delay has expired",
  "If a software task returned Pending while awaiting a delay (delay, delay_until, timeout), then once the instant of the delay has passed the timer interrupt handler is running or pending, or the dispatcher of the task is ready to proceed: the task is never forgotten. When the handler is done, the task is polled within two rounds of its dispatcher, and the delay it awaits then returns Ready.",
  "every number of tasks, delays and wakers, every clock, every interleaving of clock, compare interrupt, handler, dispatcher, polls and drops of delays, spawns and wakes",
  "a lost wake-up needs one exact interleaving of the compare interrupt, the handler's wake and the end of a dispatcher round",
  ["rtic-time/src/timer_queue.rs: on_monotonic_interrupt, Delay::poll, Delay::drop", "rtic/src/export/executor.rs: AsyncTaskExecutor", "rtic-macros/src/codegen/module.rs: waker", "rtic-macros/src/codegen/async_dispatchers.rs"])

p("A task whose awaited channel, signal or arbiter has become ready is polled",
  "If a software task returned Pending while awaiting recv(), send(), Signal::wait()/wait_fresh() or Arbiter::access(), and meanwhile the future has become ready (a value is queued or all senders are gone; a slot was freed for the waiting sender or the receiver is gone; a value was written; the arbiter was handed to the task), then once the operations that made it so and their wakers have returned, the dispatcher of the task is ready to proceed and the task is polled within two rounds of its dispatcher.",
  "every number of tasks, senders, writers and lock holders, every interleaving of their operations with spawns, wakers and the dispatcher",
  "a lost wake-up needs one exact interleaving of an operation of another party with the registration of the waker, the flag of the task and the end of a dispatcher round",
  ["rtic-sync/src/channel.rs: send, recv, return_free_slot", "rtic-sync/src/signal.rs: write, wait", "rtic-sync/src/arbiter.rs: access, ExclusiveAccess::drop", "rtic-common/src/waker_registration.rs", "rtic-common/src/wait_queue.rs", "rtic/src/export/executor.rs: AsyncTaskExecutor", "rtic-macros/src/codegen/module.rs: waker", "rtic-macros/src/codegen/async_dispatchers.rs"])

p("Waiting futures are never accessed after they are gone",
  "A future that waits in an intrusive wait queue (Sender::send, Arbiter::access, DoublyLinkedList::wait_until) may complete or be dropped at any moment and its memory may be reused at once, also by another such future: no operation ever reads or writes its link, its slot variable or the links that pointed to it afterwards; the queue is at all times a consistent doubly linked list of exactly the links of live waiting futures, a freed slot is always written into the variable of a live waiting send, and no history of events is added or removed compared to a plain first-in-first-out list.",
  "every number of futures, every choice and reuse of addresses, every interleaving of polls, completions, drops, wakes and queue operations",
  "a dangling link is exercised only if a dropped future, the reuse of its memory and a later pop or removal of a neighbour happen in one exact order, and even then usually goes unnoticed",
  ["rtic-common/src/wait_queue.rs: push, pop, remove_from_list, wait_until", "rtic-sync/src/channel.rs: send, return_free_slot, Receiver::drop", "rtic-sync/src/arbiter.rs: access, ExclusiveAccess::drop", "rtic-common/src/dropper.rs: OnDrop, OnDropWith"])

p("Delays are never accessed after they are gone",
  "A delay (delay, delay_until, timeout_at, ...) may complete or be dropped at any moment, before or after its expiry, and its memory may be reused at once, also by another delay: neither the timer interrupt handler nor any poll or drop of another delay ever reads or writes it afterwards. The queue of the timer is at all times a consistent linked list of exactly the registered, not yet expired links of live delays in the order of their instants, its search loops end, and no history of events is added or removed compared to a plain sorted list.",
  "every number of delays, every choice and reuse of addresses, every interleaving of clock, handler, polls, completions and drops",
  "a dangling link is exercised only if a drop, the reuse of its memory and a handler run happen in one exact order, and even then usually goes unnoticed",
  ["rtic-time/src/timer_queue.rs: Delay::poll, Delay::drop, on_monotonic_interrupt", "rtic-time/src/linked_list.rs: insert, delete, pop_if"])

p("A spawned or woken task runs before anything of lower priority",
  "When a successful call of spawn, or of the waker of a live task, has returned, in whatever task, interrupt handler or idle it was made: until the spawned (woken) task has been polled (or, if it was being polled when the waker was called, completed), no task of lower priority is started and none makes a step, except inside a critical section (lock or critical_section::with) it had entered before and that blocks the task; and the dispatcher of the task makes less than two rounds over its tasks. In particular spawning a task of higher priority outside critical sections preempts the caller before its next statement.",
  "every accepted application for a target with BASEPRI and up to 7 priority bits (C48) in which no local resource in use is named like a shared one (C40), every interleaving of interrupts, locks, nested critical sections, spawns and wakers called at any depth of preemption",
  "needs the composition of the executor flags, the pending bit, interrupt masking and the nesting of handlers at every instruction boundary",
  ["rtic/src/export/executor.rs: AsyncTaskExecutor", "rtic-macros/src/codegen/module.rs: spawn, waker", "rtic-macros/src/codegen/async_dispatchers.rs", "rtic/src/export/cortex_basepri.rs: lock, run", "rtic-macros/src/codegen/bindings/cortex.rs"])

p("A task whose delay has expired runs before anything of lower priority",
  "In an application with a monotonic, when the instant of a delay that a software task awaits has passed: until the task has been polled, no task of lower priority is started and none makes a step, except inside a critical section it had entered before and that blocks the task; the timer interrupt or something more urgent takes over at once.",
  "every accepted application for a target with BASEPRI, every timer, every interleaving of clock, timer interrupt, other interrupts, locks, spawns, wakers and operations on delays, at any depth of preemption",
  "needs the composition of the timer queue, the executors, the interrupt controller and the nesting of handlers at every instruction boundary",
  ["rtic-time/src/timer_queue.rs: Delay::poll, Delay::drop, on_monotonic_interrupt", "rtic-monotonics/src/lib.rs: set_monotonic_prio", "rtic-macros/src/analyze.rs: max_async_prio", "rtic-macros/src/codegen/bindings/cortex.rs: async_prio_limit", "rtic/src/export/executor.rs: AsyncTaskExecutor", "rtic-macros/src/codegen/async_dispatchers.rs", "rtic/src/export/cortex_basepri.rs: lock, run"])

p("An application is accepted if and only if it follows the rules",
  "The #[app] macro accepts an application exactly if: init, the structs of resources it returns and all functions are there and well-formed, with each argument at most once and within its range; no function name, bound interrupt or dispatcher occurs twice; used resources exist; a shared resource is not used both by reference and exclusively; lock_free resources are used at one priority and not by software tasks; local resources have one user and one declaration; software tasks of priority 0 exclude idle; bound interrupts, dispatchers and exceptions are kept apart; there are enough dispatchers; and the hardware supports the priorities. The order of items and arguments does not matter, no valid application is rejected and no invalid one is accepted. (On ESP32-C6 for up to twelve interrupts, none of them both a dispatcher and bound.)",
  "every application (any number of items, arguments, resources and dispatchers in any order) and every number of priority bits; Cortex-M, ESP32-C3, ESP32-C6 and RISC-V SLIC",
  "UI tests show single violations in otherwise valid applications; that the checks together neither miss nor exceed the rules is a statement about all applications",
  ["rtic-macros/src/syntax/parse.rs", "rtic-macros/src/syntax/parse/app.rs: App::parse", "rtic-macros/src/syntax/check.rs: app", "rtic-macros/src/syntax/analyze.rs: app", "rtic-macros/src/codegen/bindings/cortex.rs: architecture_specific_analysis", "rtic-macros/src/codegen/bindings/esp32c3.rs", "rtic-macros/src/codegen/bindings/riscv_slic.rs"])

p("Parts switched off by cfg attributes disappear without effect on the rest",
  "If tasks, shared or local resources carry #[cfg(..)] attributes, then whichever of them are switched off, an accepted application behaves like the application from which they have been deleted: that one is accepted too; the remaining tasks have the same handlers, priorities, resources and ways to be spawned, and are polled by a dispatcher whose interrupt their spawn pends; remaining resources in use are initialised before interrupts are enabled; they are never accessed by two tasks at once; ceilings, checks of Send and Sync and the priority limit of async drivers are at least as strict; nothing else of the parts is left, and parts that exclude each other do not disturb each other.",
  "every accepted application, every choice of the parts that exist, every execution",
  "tests compile one or two combinations of features; the claim is about all combinations and all executions of each",
  ["rtic-macros/src/codegen/module.rs", "rtic-macros/src/codegen/shared_resources.rs", "rtic-macros/src/codegen/shared_resources_struct.rs", "rtic-macros/src/codegen/local_resources_struct.rs", "rtic-macros/src/codegen/hardware_tasks.rs", "rtic-macros/src/codegen/async_dispatchers.rs", "rtic-macros/src/codegen/post_init.rs", "rtic-macros/src/codegen/assertions.rs", "rtic-macros/src/codegen/bindings/cortex.rs: pre_init_enable_interrupts"])

p("The generated definitions do not clash",
  "The names of the functions, modules, structs and statics that #[app] generates for an accepted application are different from each other and from the user's tasks, resources and interrupts, as long as the user's names are: no two tasks, resources or declared locals ever share a static, an executor or a spawn function through equal names.",
  "every accepted application (Cortex-M), any texts of its identifiers",
  "whether two of the built names coincide depends on all pairs of names of arbitrary length; tests use a handful",
  ["rtic-macros/src/codegen/util.rs: mark_internal_name, internal_task_ident, static_shared_resource_ident, static_local_resource_ident, declared_static_local_resource_ident", "rtic-macros/src/codegen/module.rs", "rtic-macros/src/codegen/local_resources.rs", "rtic-macros/src/codegen/shared_resources.rs", "rtic-macros/src/codegen/async_dispatchers.rs", "rtic-macros/src/codegen.rs: app"])

p("One stack suffices",
  "All tasks run to completion on a single stack: the handlers that have been started and have not yet returned always have strictly falling priorities from the innermost to the outermost. So there are never more of them than distinct priorities (and idle), and the stack they need together is at most the need of idle plus, for each priority, that of the most demanding task of this priority.",
  "every accepted application, every execution (any number of interrupts in any order, locks and critical sections), every assignment of stack needs to tasks",
  "the worst case needs one exact nesting of all priorities; that deeper nesting is impossible cannot be observed",
  ["rtic/src/export/cortex_basepri.rs: run, lock", "rtic/src/export/cortex_source_mask.rs: lock", "rtic/src/export/riscv_esp32c3.rs: run, lock", "rtic-macros/src/codegen/hardware_tasks.rs", "rtic-macros/src/codegen/async_dispatchers.rs"])

p("Every task has storage that fits its future",
  "The static storage generated for a software task holds an executor for exactly the future of this task: it has the size and the alignment of the executor, whatever future the task has and however the compiler lays it out; the executor that spawn, wakers and the dispatcher use lies within it, properly aligned; storing a future never overwrites the flags of the executor; and initially the task counts as not running and not pending. Such storage exists exactly for tasks with at most 15 inputs whose executor needs an alignment of at most 16384 bytes; others do not compile.",
  "every size and alignment of a future, every layout of the executor the compiler may choose, every address the linker may choose, every number of inputs",
  "tests compile a few tasks with small futures on one target; the claim is about all futures, layouts and addresses",
  ["rtic/src/export/executor.rs: ExecFn, exec_size, exec_align, exec_new, ExecutorHolder, exec_from_holder, Align", "rtic-macros/src/codegen/util.rs: executor_decl, executor_expr"])

p("Operations of the other primitives finish without waiting for anyone",
  "Signal::write, clear, a poll of wait or wait_fresh, Watch::write, try_get, a poll of changed, a poll or the drop of a Delay, a poll of DoublyLinkedList::wait_until and every operation of an Arbiter finish after a small fixed number of their own critical sections (at most four), whatever other tasks and interrupts do in between; and in the middle of such an operation there is never a state in which it cannot go on.",
  "every state, every interleaving with any number of writers, waiters, notifiers, interrupts and clock ticks",
  "a loop that retries when another task interferes needs an adversarial schedule of unbounded length to be noticed",
  ["rtic-sync/src/signal.rs: write, clear, wait, wait_fresh", "rtic-sync/src/watch.rs: write, try_get, changed", "rtic-sync/src/arbiter.rs: access, try_access, ExclusiveAccess::drop", "rtic-common/src/wait_queue.rs: wait_until", "rtic-time/src/timer_queue.rs: Delay::poll, Delay::drop"])

p("Run-time and generated code are for the same target",
  "A build with rtic goes on if and only if exactly one *-backend feature is enabled in the whole dependency tree; and then both the run-time (lock, run, pend, interrupt controller) and the code generator of #[app] are compiled for the target of this feature and for no other, in whatever order the build scripts see the features and whatever else is in the environment or enabled on rtic-macros.",
  "every set of enabled features of rtic and of rtic-macros, every environment and order of its variables",
  "one build has one set of features; that no combination mixes targets is a statement about all of them",
  ["rtic/build.rs: backends, main", "rtic/Cargo.toml: features", "rtic/src/export.rs", "rtic-macros/build.rs: non_default_features, main", "rtic-macros/src/codegen/bindings.rs", "rtic-macros/src/syntax/backend.rs"])

p("A spawned or woken task runs before anything of lower priority, without BASEPRI",
  "The same as the property for BASEPRI targets, on targets whose locks disable interrupts one register at a time: when a successful call of spawn, or of the waker of a live task, has returned, no task of lower priority is started and none makes a step until the spawned (woken) task has been polled, except inside a critical section it had entered before and that blocks the task; if there is none, the dispatcher (or something more urgent) takes over at once.",
  "every application and every accepted app macro input, every execution: any number of tasks, priorities, interrupts at any moment (also between any two register accesses of lock), locks, critical sections, preempted callers",
  "the claim is about all interleavings of register accesses of lock, flag accesses of executors and interrupt arrivals; the failing schedule needs an interrupt between two adjacent register writes",
  ["rtic/src/export/cortex_source_mask.rs: lock, clear_enable_mask, set_enable_mask", "rtic/src/export/executor.rs", "rtic-macros/src/codegen/async_dispatchers.rs", "rtic-macros/src/codegen/module.rs: spawn, waker", "rtic-macros/src/codegen/bindings/cortex.rs: impl_mutex"])

p("A spawned, woken or requested task runs before anything of lower priority, on ESP32-C3/C6",
  "The same on ESP32-C3 and C6, whose interrupt lines stay asserted until the dispatcher clears them itself and whose locks write the interrupt threshold: when a successful call of spawn, or of the waker of a live task, has returned, or while a peripheral requests a hardware task, no task of lower priority is started and none makes a step until the task has been polled (the request ends), except inside a critical section it had entered before and that blocks the task; if there is none, the dispatcher (or something more urgent) takes over at once. The dispatcher gets to the task in less than two rounds over its tasks, also if it is preempted between its entry and the write that clears its line.",
  "every application with consistent ceilings, and every accepted app macro input with a line for each handler (C70) in which no local resource in use is named like a shared one (C40), every execution: any number of tasks, priorities, interrupts at any moment (also between entry and clearing of the line), locks, critical sections, preempted callers",
  "the claim is about all interleavings of line clearing, flag accesses of executors and interrupt arrivals; a lost request needs a call in one particular gap",
  ["rtic/src/export/riscv_esp32c3.rs: run, lock, pend, unpend", "rtic-macros/src/codegen/bindings/esp32c3.rs: async_entry", "rtic/src/export/executor.rs", "rtic-macros/src/codegen/async_dispatchers.rs", "rtic-macros/src/codegen/module.rs: spawn, waker"])

p("Startup on ESP32-C3/C6: nothing before init, every interrupt reaches its own task",
  "On ESP32-C3 and C6 too no task runs before init has returned and all resources have been stored, whatever interrupts are asserted during startup; and through the interrupt matrix (mapping of interrupts to CPU lines, priorities of lines, handlers exported by number of the line) every interrupt leads to exactly the task bound to it, or the dispatcher it stands for, on a line with the priority of that task; after startup every task can run.",
  "every accepted app macro input, every sequence of asserted interrupts at any moment of startup",
  "mapping, priority, enable bit and export name of all handlers have to agree for every set of tasks; a test checks one application on one chip",
  ["rtic-macros/src/codegen/main.rs", "rtic-macros/src/codegen/pre_init.rs", "rtic-macros/src/codegen/post_init.rs", "rtic-macros/src/codegen/bindings/esp32c3.rs: pre_init_enable_interrupts, handler_config", "rtic-macros/src/codegen/bindings/esp32c6.rs", "rtic/src/export/riscv_esp32c3.rs: enable"])

p("A write, a send or the drop of the last sender that has returned has woken the waiting task",
  "When Signal::write, Signal::clear, Watch::write, Sender::send or Sender::try_send (with Ok) returns, or the drop of the last Sender ends, the waker that the waiting task registered before has been called since it was registered. This does not depend on the number of values already queued, nor on other writers or senders that are suspended in the middle of their own operations.",
  "every history of any number of writers or senders and one reader, all interleavings of their critical sections",
  "a wake that is skipped because another operation is believed to do it is lost only if that other operation is preempted at one particular point, for an unbounded time",
  ["rtic-sync/src/signal.rs: write, clear", "rtic-sync/src/watch.rs: write", "rtic-sync/src/channel.rs: send_footer, Sender::drop", "rtic-common/src/waker_registration.rs: wake, register"])

p("In a running application, a task whose awaited future is ready runs before anything of lower priority",
  "A task awaits Signal::wait, Watch::changed, Receiver::recv, Sender::send or Arbiter::access in a running application with interrupts, locks and critical sections. When the future has become ready (nobody being in the middle of an operation of the primitive), or as soon as the write or send that makes it ready has returned (whatever other operations are suspended), no task of lower priority is started and none makes a step until the waiting task is polled, except inside a critical section it had entered before and that blocks the task; and the dispatcher polls it in less than two rounds.",
  "every application with consistent ceilings (BASEPRI targets, up to 7 priority bits, C48), and every accepted app macro input in which no local resource in use is named like a shared one (C40), every execution: operations of any number of tasks on the primitive, preempted between any two of their accesses, interrupts at any moment, locks, critical sections",
  "the claim is about all interleavings of the accesses of the primitive, of the executors and of the interrupt controller together; each unit test fixes one schedule of one layer",
  ["rtic-sync/src/signal.rs", "rtic-sync/src/watch.rs", "rtic-sync/src/channel.rs", "rtic-sync/src/arbiter.rs", "rtic-common/src/waker_registration.rs", "rtic/src/export/executor.rs", "rtic/src/export/cortex_basepri.rs: run, lock", "rtic-macros/src/codegen/async_dispatchers.rs", "rtic-macros/src/codegen/module.rs: waker"])

p("Starting an STM32 monotonic enables and resets exactly its own timer",
  "The clock-enable and reset bits used to start a timer are the ones the chip's metadata names for it (names compared up to ASCII case, completely); a timer, register or field that is missing from the metadata is a compile-time error, and one that is there compiles. At run time the clock of the timer is enabled, its reset is asserted after that and released; every other bit of these registers keeps its value and no other register is written, provided no other code writes the same two registers meanwhile (the update is not atomic: a concurrent one would be lost).",
  "every content of the metadata, every timer name, every previous content of the registers, every interleaving with writes of other code to other registers",
  "tests run on one chip; the claim is about all tables of names, addresses and bit positions and all register contents",
  ["rtic-monotonics/src/stm32/meta.rs: TimerRcc::lookup, enable, reset, RccBit::lookup, set, field_bit, find_peripheral, streq", "rtic-monotonics/src/stm32.rs: _start"])

p("Exactly the documented function signatures are accepted, in the module and in extern blocks",
  "The macro accepts a function as init, idle, hardware task or software task exactly if its signature has the documented form (not pub, const, unsafe, generic, variadic; first argument its own context and, except for software tasks, no other; init returns the pair of the shared and the local struct, idle returns !, hardware tasks return nothing, software tasks are async and return nothing or !). Functions declared in an extern block are treated exactly like functions of the module, except that every one of them must carry a task attribute and that a task that returns may not take a 'static context. The generated code is that of the items the module consists of.",
  "every module: any list of functions, structs, extern blocks and other items, any attributes, signatures and types",
  "the set of module texts is unbounded; the trybuild tests check a few dozen",
  ["rtic-macros/src/syntax/parse/app.rs: App::parse", "rtic-macros/src/syntax/parse/{init,idle,hardware_task,software_task}.rs", "rtic-macros/src/syntax/parse/util.rs: check_fn_signature, check_foreign_fn_signature, parse_inputs, parse_local_resources, type_is_bottom, type_is_init_return, type_is_unit, attribute_matches", "rtic-macros/src/syntax/parse.rs"])

p("References to resources never alias, whatever the tasks keep",
  "Of any two references to resources that exist at the same time (from the contexts of init, idle and tasks, kept as long as their lifetimes allow, or given to the closure of lock) and that are to the same resource, both are shared references. Contexts have lifetime 'static exactly for tasks declared with -> !.",
  "every accepted module that compiles, every execution: starts, ends and repetitions of tasks, references of lifetime 'static stored anywhere for any time, locks",
  "a test keeps some reference in some place; the claim is about everything safe code can do with the references, for all resource declarations",
  ["rtic-macros/src/codegen/local_resources_struct.rs", "rtic-macros/src/codegen/shared_resources_struct.rs", "rtic-macros/src/codegen/module.rs: codegen", "rtic-macros/src/codegen/software_tasks.rs", "rtic-macros/src/codegen/hardware_tasks.rs", "rtic-macros/src/syntax.rs: Context::runs_once", "rtic/src/export/executor.rs: assert_task_diverges"])

p("What is passed to a spawned task outlives it",
  "A task that has been spawned and has not ended never refers (through its inputs) to data of a function call that has returned.",
  "every accepted module, every sequence of calls, returns, spawns and ends of tasks",
  "a dangling reference shows up only if the spawned task runs after the caller has returned and its stack has been reused",
  ["rtic-macros/src/codegen/module.rs: codegen (spawn)", "rtic/src/export/executor.rs: AsyncTaskExecutor, spawn", "rtic/ui/task-reference-in-spawn.rs"])

p("The arguments of the attributes are read as documented, in any order",
  "The tokens in the parentheses of #[task], #[idle], #[init] and #[app] are accepted exactly if they are a comma separated list of the documented arguments (binds, priority, shared, local, local_task; device, core, peripherals, dispatchers, backend), each at most once, priorities unsuffixed and at most 255 (not 0 with binds), no resource or interrupt twice in a list, local lists not empty, only declared resources in init, and device present in #[app]. What is read is what is written, with the documented defaults for what is left out; the order of the arguments does not matter; and this is what the analysis works with.",
  "every stream of tokens, every parser for paths, types and expressions that consumes what it reads",
  "token streams are unbounded; the trybuild tests check a few dozen",
  ["rtic-macros/src/syntax/parse.rs: init_args, idle_args, task_args", "rtic-macros/src/syntax/parse/util.rs: parse_shared_resources, parse_local_resources, extract_resource_name_ident, filter_attributes", "rtic-macros/src/syntax/parse/app.rs: AppArgs::parse", "rtic-macros/src/syntax/backend"])

p("Argument lists are punctuated alike everywhere, and nothing written in them is ignored",
  "A comma at the end of an argument list is accepted or refused alike in all attributes; entries of a list are separated by commas; an attribute on a resource, and every argument, has an effect or is refused.",
  "every stream of tokens",
  "silently ignored input shows up in no test that does not look for it",
  ["rtic-macros/src/syntax/parse.rs: init_args, idle_args, task_args", "rtic-macros/src/syntax/parse/util.rs: parse_shared_resources, parse_local_resources"])

p("A module is accepted exactly if its source follows the documented rules, and its code is that of the rules",
  "From the tokens of #[app(..)] and of the attributes, the signatures and the structs of a module: the macro accepts the module exactly if the arguments are written as documented (C100), the functions and extern blocks have the documented forms (C97) and the items obey the rules on resources, priorities, interrupts and dispatchers (C84); the generated code is determined by them, so that the guarantees on generated code hold for every module the macro accepts.",
  "every list of tokens in #[app(..)], every module, every parser for paths, types and expressions that consumes what it reads; Cortex-M, ESP32-C3, RISC-V SLIC (CLINT and MECALL), and ESP32-C6 for up to twelve interrupts",
  "modules are unbounded; trybuild checks a few dozen rejected ones, the examples a few dozen accepted ones (all of them are evaluated in the model as well)",
  ["rtic-macros/src/lib.rs: app, mock_app", "rtic-macros/src/syntax.rs: parse2", "rtic-macros/src/syntax/parse.rs: app", "rtic-macros/src/syntax/parse/app.rs: App::parse", "rtic-macros/ui", "rtic/ui", "examples/lm3s6965/examples"])

p("Source-masking targets: in a running application, a task whose awaited future is ready runs before anything of lower priority",
  "On Cortex-M without BASEPRI, a task awaits Signal::wait, Watch::changed, Receiver::recv, Sender::send or Arbiter::access in a running application with interrupts, locks and critical sections. When the future has become ready, or as soon as the write or send that makes it ready has returned, no task of lower priority is started and none makes a step until the waiting task is polled, except inside a critical section it had entered before and that blocks the task; and the dispatcher polls it in less than two rounds.",
  "every application and every accepted app macro input on a source-masking target, every execution: operations of any number of tasks on the primitive, preempted between any two of their accesses, interrupts at any moment, locks register by register, critical sections",
  "the claim is about all interleavings of the accesses of the primitive, of the executors and of the interrupt enable registers together; each unit test fixes one schedule of one layer",
  ["rtic-sync/src/signal.rs", "rtic-sync/src/watch.rs", "rtic-sync/src/channel.rs", "rtic-sync/src/arbiter.rs", "rtic/src/export/executor.rs", "rtic/src/export/cortex_source_mask.rs: lock", "rtic-macros/src/codegen/async_dispatchers.rs", "rtic-macros/src/codegen/module.rs: waker"])

p("ESP32-C3/C6: in a running application, a task whose awaited future is ready runs before anything of lower priority",
  "On the ESP32-C3 and C6, a task awaits Signal::wait, Watch::changed, Receiver::recv, Sender::send or Arbiter::access in a running application with interrupts, locks and critical sections. When the future has become ready, or as soon as the write or send that makes it ready has returned, no task of lower priority is started and none makes a step until the waiting task is polled, except inside a critical section it had entered before and that blocks the task; and the dispatcher polls it in less than two rounds.",
  "every application with consistent ceilings, and every accepted app macro input for the ESP32-C3 and C6 with a line for each handler (C70) in which no local resource in use is named like a shared one (C40), every execution: operations of any number of tasks on the primitive, preempted between any two of their accesses, level-triggered interrupts at any moment, locks, critical sections",
  "the claim is about all interleavings of the accesses of the primitive, of the executors and of the interrupt controller together; each unit test fixes one schedule of one layer",
  ["rtic-sync/src/signal.rs", "rtic-sync/src/watch.rs", "rtic-sync/src/channel.rs", "rtic-sync/src/arbiter.rs", "rtic/src/export/executor.rs", "rtic/src/export/riscv_esp32c3.rs: run, lock", "rtic-macros/src/codegen/bindings/esp32c3.rs: async_entry", "rtic-macros/src/codegen/async_dispatchers.rs", "rtic-macros/src/codegen/module.rs: waker"])

p("Source-masking targets: a task whose delay has expired runs before anything of lower priority",
  "On Cortex-M without BASEPRI, in an application with a monotonic, when the instant of a delay that a software task awaits has passed: until the task has been polled, no task of lower priority is started and none makes a step, except inside a critical section it had entered before and that blocks the task; the timer interrupt or something more urgent takes over at once.",
  "every accepted application for a target without BASEPRI, every timer, every interleaving of clock, timer interrupt, other interrupts, locks register by register, spawns, wakers and operations on delays, at any depth of preemption",
  "needs the composition of the timer queue, the executors, the interrupt enable registers and the nesting of handlers at every instruction boundary",
  ["rtic-time/src/timer_queue.rs: Delay::poll, Delay::drop, on_monotonic_interrupt", "rtic-monotonics/src/lib.rs: set_monotonic_prio", "rtic-macros/src/analyze.rs: max_async_prio", "rtic-macros/src/codegen/bindings/cortex.rs: source_masking, async_prio_limit", "rtic/src/export/executor.rs: AsyncTaskExecutor", "rtic-macros/src/codegen/async_dispatchers.rs", "rtic/src/export/cortex_source_mask.rs: lock"])

p("ESP32-C3/C6: a task whose delay has expired runs before anything of lower priority",
  "On the ESP32-C3 and C6, in an application with a monotonic, when the instant of a delay that a software task awaits has passed: until the task has been polled, no task of lower priority is started and none makes a step, except inside a critical section it had entered before and that blocks the task; the timer interrupt or something more urgent takes over at once. The timer handler is never entered while it runs, although pend_interrupt calls it like a function.",
  "every application accepted for the ESP32-C3 or C6, every timer, every interleaving of clock, timer interrupt, calls of pend_interrupt, other interrupts, locks, spawns, wakers and operations on delays, at any depth of preemption",
  "needs the composition of the timer queue, the executors, the interrupt controller and the nesting of handlers at every instruction boundary",
  ["rtic-time/src/timer_queue.rs: Delay::poll, Delay::drop, on_monotonic_interrupt", "rtic-monotonics/src/esp32c3.rs: _start, pend_interrupt", "rtic-monotonics/src/esp32c6.rs: _start, pend_interrupt", "rtic/src/export/riscv_esp32c3.rs: run, lock", "rtic/src/export/executor.rs: AsyncTaskExecutor", "rtic-macros/src/codegen/async_dispatchers.rs"])

p("ESP32-C3/C6: the interrupt line of the monotonic is not given to a task",
  "In an application accepted for the ESP32-C3 or C6, no handler of a task or dispatcher is enabled on CPU interrupt line 31, or exported as interrupt31, which the monotonic uses.",
  "every application accepted for the ESP32-C3 or C6",
  "the lines depend on the number of dispatchers and hardware tasks; the examples have few",
  ["rtic-macros/src/codegen/bindings/esp32c3.rs: pre_init_enable_interrupts, handler_config", "rtic-macros/src/codegen/bindings/esp32c6.rs: EXTERNAL_INTERRUPTS, pre_init_enable_interrupts, handler_config", "rtic-monotonics/src/esp32c3.rs: _start, esp32c3_systimer_monotonic", "rtic-monotonics/src/esp32c6.rs: _start, esp32c6_systimer_monotonic"])

p("Starting a monotonic puts its timer into a known state",
  "After the start function of a monotonic has returned, whatever the timer peripheral did before, it runs through all its values with the requested prescaler, overflow and half period raise the interrupt, and counter, flags and the software extension belong together, so that the time read is the number of ticks since the start and the interrupt handler does not panic.",
  "every state of the peripheral before the start (running or not, any counter value, flags, compare values, interrupt enables, modes), any number of ticks between any two register accesses; STM32 timers, Silabs TIMER and RTCC, i.MX RT GPT, nRF TIMER and RTC",
  "tests start from a freshly reset peripheral; what a boot loader or driver leaves behind is not tested, nor are ticks between two accesses",
  ["rtic-monotonics/src/stm32.rs: _start", "rtic-monotonics/src/silabs/timer.rs: _start", "rtic-monotonics/src/silabs/rtcc.rs: _start", "rtic-monotonics/src/imxrt.rs: _start", "rtic-monotonics/src/nrf/timer.rs: _start", "rtic-monotonics/src/nrf/rtc.rs: _start"])

p("A SysTick monotonic ticks at the requested rate from the start",
  "After the start of a SysTick monotonic, whatever SysTick did before, a tick comes at the latest one tick period after the start and then once every period; nothing left over from before the start is counted.",
  "every state of SysTick before the start, every reload value accepted by the start function, any number of cycles",
  "the current value of SysTick is unknown after a reset; simulators start it at zero",
  ["rtic-monotonics/src/systick.rs: _start, now, on_interrupt"])

p("Acknowledging one interrupt flag of a timer leaves the others",
  "When a monotonic clears an interrupt flag of its timer peripheral (the compare flag of delays, the overflow flag, the half-period flag), that flag is cleared, and every other flag of the peripheral that was set stays set, whichever flags the hardware raises meanwhile.",
  "every value of the flag register, of any width, every flag, any flags raised by the hardware between any two accesses; all timers with a flag register",
  "a flag that is raised or pending while another one is acknowledged is a matter of single clock cycles",
  ["rtic-monotonics/src/stm32.rs: clear_compare_flag, on_interrupt", "rtic-monotonics/src/imxrt.rs: clear_compare_flag, on_interrupt", "rtic-monotonics/src/silabs: clear_compare_flag, on_interrupt", "rtic-monotonics/src/nrf: clear_compare_flag, on_interrupt", "rtic-monotonics/src/rp2040.rs: clear_compare_flag", "rtic-monotonics/src/rp235x.rs: clear_compare_flag", "rtic-monotonics/src/esp32c3.rs: clear_compare_flag", "rtic-monotonics/src/esp32c6.rs: clear_compare_flag"])

p("Channels, arbiters, signals, watches and wait queues have no data races",
  "In every execution any two accesses to the same non-atomic memory of a channel, arbiter, signal, watch or wait queue (buffers, queues, wakers, list links in the futures of waiters, the guarded value), one of them a write, are ordered by happens-before, even if the senders, receivers, waiters and notifiers run on different cores and the only synchronisation is that of the critical sections: relaxed atomics order nothing.",
  "every execution of any length, any number of senders, receivers, waiters and writers each on a thread of its own, any capacity, cancellation and drops at any point",
  "a data race is undefined behaviour that need not show, and no test run enumerates the interleavings",
  ["rtic-sync/src/channel.rs", "rtic-sync/src/arbiter.rs", "rtic-sync/src/signal.rs", "rtic-sync/src/watch.rs", "rtic-common/src/wait_queue.rs"])

p("The timer queue has no data race with delays on other cores",
  "In every execution the accesses to the link of a delay by the delay itself (creation, insertion, drop) and by the timer interrupt and other delays (walking the list, popping) are ordered by happens-before if one of them is a write, even if the delay is used on another core than the one that runs the timer interrupt.",
  "every execution of any length, any number of delays, every instant and tick width, drops at any point",
  "a data race is undefined behaviour that need not show, and no test run enumerates the interleavings",
  ["rtic-time/src/timer_queue.rs: Delay::poll, Delay::drop, on_monotonic_interrupt", "rtic-time/src/linked_list.rs: insert, delete, pop_if"])

p("The future that spawn stores is visible to the dispatcher that polls it",
  "The storing of a future by spawn happens-before its first poll, and its last poll happens-before the storing of the next one, by the memory orderings of the executor's flags alone, whichever cores spawner, wakers and dispatcher run on.",
  "every execution of any length, any number of tasks, spawners and wakers, any assignment of them to cores",
  "missing orderings are invisible on strongly ordered and single-core test machines",
  ["rtic/src/export/executor.rs: try_allocate, spawn, set_pending, check_and_clear_pending, poll"])

p("Polling a delay does not enable interrupts",
  "Polling a delay (also by hand) inside a critical section or in init leaves interrupts disabled: no task starts before the critical section ends or init has returned and its resources are in place.",
  "every nesting of interrupts, critical sections and polls of delays, in every order, at any depth; every backend",
  "the examples poll delays in tasks with interrupts enabled only, and an interrupt must be pending at that moment",
  ["rtic-time/src/timer_queue.rs: Delay::poll", "rtic-monotonics/src/esp32c3.rs: pend_interrupt", "rtic-monotonics/src/esp32c6.rs: pend_interrupt", "rtic-monotonics/src/stm32.rs: pend_interrupt", "rtic-macros/src/codegen/pre_init.rs", "rtic-macros/src/codegen/post_init.rs"])

p("One make_channel! gives out the ends of its channel at most once",
  "However often, from however many tasks or cores one make_channel! is executed, at most one execution returns a sender and a receiver of its static channel; every later one panics, and none panics unless another one has got past the check.",
  "every number of callers and calls, every interleaving of their accesses",
  "two calls must meet inside the macro",
  ["rtic-sync/src/channel.rs: make_channel"])

p("ESP32-C3/C6: arming the system timer",
  "After set_compare(t), whatever state the timer was in, the comparator fires once when the counter that now() reads shows t, its interrupt is enabled and the counter counts; meanwhile the counter is not stopped and never is a mixture of two instants compared; no instant makes it panic.",
  "every instant, every state of the registers, interruption after any number of register accesses; every reset value of the registers that suits",
  "register writes that start from the reset value cancel each other, which depends on values not in the code",
  ["rtic-monotonics/src/esp32c3.rs: _start, set_compare", "rtic-monotonics/src/esp32c6.rs: _start, set_compare"])

if __name__=="__main__":
    with open("/verif/properties.jsonl","w") as f:
        for x in P: f.write(json.dumps(x)+"\n")
    print(len(P))
    for x in P: print(x["id"],x["title"])
