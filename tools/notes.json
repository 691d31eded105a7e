{
 "C01": "FIFO/conservation over every interleaving of any number of senders with the receiver (Channel machine: one step per critical section).",
 "C02": "Slots are owned by exactly one of free queue, ready queue, a sender, the receiver; the unsafe cell accesses are shown defined.",
 "C09": "The full statement is false of the code (C09_nosender_violated): try_recv finds the queue empty, then the last sender sends and is dropped, then no sender is found: NoSender although a value is queued. Proved part: after NoSender nothing is ever put in again; and nothing is left if the receive is not preempted between its two checks.",
 "C10": "False of the code for every history: split does not reset receiver_dropped, so every send is refused (C10_reuse_violated), and queued values of the previous use remain (C10_leftover_violated). Proved part: with an empty queue this flag (and the stale waker) is the only thing missing.",
 "C14": "False of the code: the waker is registered after the condition was evaluated, a wake in between is lost. Proved part: when no waiter is in this window at the moment the condition becomes true.",
 "C17": "False of the code: an access future dropped after the resource was handed to it leaves it taken forever. Partial: holds for executions without such a cancellation.",
 "C22": "False of the code: a write between copying the value and mark_seen is marked seen. Partial: without a write in this window.",
 "C33": "False on RP2040/RP235x (alarm may come one tick late) and nRF RTC (up to two ticks late). Proved: in time for the other backends and up to these margins for all; exact for instants within the hardware window.",
 "C38": "False of the code: a stale waker (or task::waker() from safe code) sets the pending flag between try_allocate and the store of the future; the dispatcher then polls an uninitialised or completed future. Partial: true if there is no stale flag, or the spawner is not preempted by the dispatcher.",
 "C40": "False of the code on a name collision of a shared and a local resource: the ceiling is overwritten by the local's. C40_ceiling_on_name_collision says exactly what is computed, C40_exclusion_violated shows two tasks inside lock on one resource. Partial: exact maximum if no local resource in use has this name.",
 "C43": "False of the code on the same name collision (Send not demanded). Partial: without the collision, for shared resources; local resources, inputs and Sync are unconditional.",
 "C51": "False of the code: a nested lock with a lower ceiling lowers the threshold. Proved part: executions in which nested locks have non-decreasing ceilings.",
 "C56": "False of the code: dropping the future while it is suspended in a delay or bus operation leaves chip-select low. Proved part: the blocking-bus device without delay operations has no suspension point at all.",
 "C57": "False of the code: the 24-bit timer is declared 32 bits wide. Proved part: exact up to half the timer range (2^23 ticks).",
 "C58": "False of the code: a reader preempted between has_wrapped and fetch_add makes the preempting reader see an old time. Proved part: current if no other reader is in that window.",
 "C59": "False of the code: exceptions cannot be masked through the NVIC enable registers. Proved part: holds if exception-bound users have the lowest priority among the users of the resource.",
 "C60": "False of the code: on unlock the whole 32-bit enable chunk read at lock is written back (C60_foreign_mask_violated). Proved parts: interrupts in chunks that contain no masked interrupt are left alone; an interrupt that is disabled while no lock is in progress stays disabled in every continuation (the code never switches on an interrupt that was off when the lock was taken); an interrupt in no mask is switched off only by the application's own NVIC::mask.",
 "C64": "Hypothesis NoCollision (a local resource in use is not named like a shared one) is needed, see C40. 8 priority bits excluded (cortex_logical2hw overflows, C48). Exceptions on interrupt-masking targets: see C59.",
 "C65": "False of the code for the Silabs TIMER with divisors above 1024 (the assertion allows 65536, the prescaler field has 10 bits); the width of that field is taken from the device, not from /repo. Proved for the others and up to 1024.",
 "C68": "holds for Signal, Watch, recv and wait_until; violated by send, access and Delay (the first waker is kept), for which only 'a waker it was polled with' is proved",
 "C69": "False of the code: a call preempted between the two halves by another call of now() can return a value almost 2^32 ticks ahead; and the 52-bit counter wraps while Ticks is u64. Proved: never behind, less than 2^32 ahead, exact without a preempting call.",
 "C70": "False of the code for more than 16 (C3) or 12 (C6) interrupts, which the macro does not refuse. Proved below this number.",
 "C71": "False of the code for a lock of lower ceiling nested in one of higher ceiling (C51). Proved for properly ordered nestings; lock_free and local without restriction.",
 "C72": "Hypothesis: no hardware task binds the generated names __RTICDispatcher<i>. lock/run/pend are in the external crate riscv_slic and not modelled.",
 "C74": "Pending-ness is the relation Waiting (the hardware starts a handler of at least the task's priority at once whenever it is admitted).",
 "C75": "False in general: when the interrupts of two tasks of different priorities are in different registers, the lower-priority task can run in full between the two register writes of a lock that has already masked the pending higher-priority one (C75_inversion_violated; C75_other_register_violated: in every such application in which idle locks a resource of the higher priority); exceptions are never masked by locks (C75_exception_violated). Proved: if the interrupts of lower priority are in the register of the task's own interrupt (always so with up to 32 interrupts) and bound to interrupts everything holds; with any number of registers a task not blocked when pended is never blocked later. No calls of NVIC::mask by the application (C60).",
 "C83": "False of the code in two cases: Delay::poll pends the timer interrupt outside the critical section of the insertion, so a low-priority task preempted in between delays the expiry of later delays of more urgent tasks (C83_priority_inversion_violated); and a software task more urgent than some hardware task is more urgent than the timer interrupt (C83_low_timer_violated). Proved, for single configurations and for accepted applications, for tasks whose priority is below that of all hardware tasks and while nobody of lower priority is preempted between insertion and pend.",
 "C85": "False of the code in three respects: the interrupt of a hardware task that is switched off is configured and unmasked all the same, with no handler (C85_interrupts_violated, C85_unhandled); the types of resources and inputs that are switched off still have to be Send/Sync (C85_bounds_violated); parts that exclude each other, such as two tasks for the same interrupt, are refused (C85_variants_violated). Everything else is proved for all applications and switches (exclusion and ceilings under C40's condition on names).",
 "C86": "False without conditions on names: C86_resource_violated (task resource_a declaring x, local field a_x), C86_underscore_violated (tasks a_b and a declaring c and b_c), C86_spawn_violated (software task shared_resource, shared resource spawn), C86_vector_violated (a task called like its interrupt): the application is accepted and the generated module defines a name twice, which rustc refuses. C86_names_distinct_partial proves that all names are distinct for every application whose names avoid these patterns (Plain).",
 "C87": "Proved for BASEPRI and for targets that mask interrupts. False on ESP32 (C87_esp_violated): run of priority 1 sets the threshold to 1 before the runtime has left the trap, so that the same interrupt can be taken again; any number of activations that have finished their task but not returned can pile up. There the bound holds for handlers executing a task (C87_esp_stack_partial).",
 "C88": "Layout rules of the Rust reference are modelled (repr(C), arrays, zero-sized aligned types); the layout of the executor itself is an arbitrary one satisfying the guarantees of the reference.",
 "C89": "Steps are the critical sections and atomic accesses of the models of C14-C22, C25-C29. For Delay the insertion needs the documented range of instants. The timer interrupt handler is C67, the channel C73, the executor C76.",
 "C90": "Cargo's treatment of features (one environment variable each, unified over the dependency tree) is assumed as documented.",
 "C91": "False of the code if a task of lower priority is bound to an interrupt of another register than that of the task's dispatcher (lock masks register after register; possible with more than 32 interrupts) or to an exception (locks do not mask them): C91_inversion_violated, C91_exception_violated (C91_not_plain_violated, C91_app_not_plain_violated: in every system, and in every accepted application, with such a hardware task, a suitable lock of idle and a more urgent caller). Proved when all tasks of lower priority are bound to interrupts of the same register as the dispatcher (more urgent ones to anything).",
 "C93": "False of the code with more interrupt handlers than CPU lines (12 on the C6, 16 on the C3): such applications are accepted and the last tasks never run. Proved up to that number; the after-init half is proved without restriction.",
 "C98": "Proved for every execution except that an extern task declared `-> !` may return a type for which the user implemented `From` into `Infallible`: `assert_task_diverges` accepts it, and two `&'static mut` to one resource exist (C98_static_alias_violated).",
 "C99": "Proved for all tasks except those of `extern` blocks that return and take references: their future is transmuted before it is given to the executor, so that the bound `'static` is not checked (C99_arguments_dangle_violated).",
 "C100": "The parsers of the crate syn for paths, types and expressions are arbitrary functions that consume tokens; for the documented forms it is assumed that they read an identifier as that identifier.",
 "C101": "False of the code: a comma at the end is accepted for tasks and #[app], refused for idle (and init); the comma after a declared local resource may be missing; attributes of the last local resource, #[cfg] on local resources that are not declared in place and all attributes on shared resources are ignored; local_task is ignored on hardware tasks; the value in #[task = value] (also idle, init) is ignored. Proved: what is kept of every entry of a local list.",
 "C102": "Composition of C100, C97 and C84. All programs of rtic-macros/ui and rtic/ui are refused in the model with the messages of their .stderr files, all of examples/lm3s6965 are accepted (Front/Ui.lean, Front/Examples.lean, generated by tools/ui.py). On ESP32-C6 for up to twelve interrupts, none of them both a dispatcher and bound (see C70).",
 "C103": "False if a task of lower priority is bound to an interrupt of another register (C103_inversion_violated) or to an exception (C91_exception_violated), for the reason of C91. Proved when all tasks of lower priority are bound to interrupts of the same register as the dispatcher of the task in question.",
 "C104": "For t0 ≤ 1 (threshold at startup) and at most as many handlers as the chip has interrupt lines (C93).",
 "C105": "False of the code for the reasons of C83 (C105_priority_inversion_violated, C105_low_timer_violated) and, with tasks of lower priority bound to interrupts of other registers or exceptions, of C91. Proved, for single configurations and for accepted applications, when all tasks of lower priority are bound to interrupts of the same register as the dispatcher of the task, for tasks whose priority is below that of all hardware tasks and while nobody of lower priority is preempted between insertion and pend.",
 "C106": "False of the code for the first reason of C83 (C106_priority_inversion_violated); the second does not arise, since the timer has the highest priority. Proved, for single configurations and for accepted applications, while nobody of lower priority is preempted between insertion and pend_interrupt. Delays are not polled with interrupts disabled (pend_interrupt would enable them).",
 "C107": "False of the code for exactly 16 handlers on the C3 and 12 on the C6 (C107_line_violated; such an application does not link with the monotonic). Proved for fewer.",
 "C48": "False of the code for 8 priority bits, which the architecture allows (C48_eight_bits_violated: 1u8 << 8). Proved for 1 to 7, with and without overflow checks. The other properties of BASEPRI targets assume at most 7 bits.",
 "C108": "Proved for every previous state of STM32 timers, Silabs TIMER and i.MX RT GPT (C108_start_known_state), with the resulting clock exact (C108_clock_exact). Missing for the other three: the RTCC start neither stops and clears the counter nor clears flags (panic at the first overflow, or a jump by 2^32 ticks); nRF RTC and TIMER do not stop a running counter, so the prescaler write is without effect, and the TIMER keeps MODE and SHORTS. For these the theorem needs the stated previous state. LETIMER is not modelled here (C57). C108_delay_interrupt: for every timer and any previous state the interrupt of the delay compare register is enabled after the start exactly where no `enable_timer` does it later.",
 "C109": "Proved: rate after the first tick, nothing counted from before the start; the first tick in time only if the current value is at most reload + 1: _start does not clear the current value, so the first tick may come up to 2^24 - 1 cycles late (C109_first_tick_violated).",
 "C110": "Proved for STM32, i.MX RT, Silabs, ESP32 and nRF; false on RP2040 and RP235x, where INTR (write one to clear) is accessed by modify: pending flags of alarms 1 to 3 are lost (C110_rp_violated). The flag itself is cleared on all chips.",
 "C111": "Happens-before is program order plus critical sections (one lock) on the executions of the machines of C08-C27; loads of atomics read the latest store (modification order = execution order), so weak-memory reorderings of relaxed atomics are outside the model.",
 "C112": "False on several cores: Delay::drop reads was_popped (relaxed, no critical section) and lets the memory of the link end while the handler may still be cloning the waker inside its critical section (C112_drop_violated). Proved if the thread has passed a critical section since the pop, in particular if drop took one (C112_fixed_race_free_partial). On one core C81 applies.",
 "C113": "Proved if wakers set the flag only between first poll and completion of the instance they were made for and no flag is left over at a spawn; false otherwise on several cores: the flag store of a waker of an earlier instance hides the release store of spawn (C113_late_waker_violated). On one core there is no race at all.",
 "C114": "False on the ESP32-C3/C6: pend_interrupt ends with riscv::interrupt::enable(), whatever the state before (C114_call_violated: a task starts inside init, and inside a critical section). Proved for all other backends, and for the ESP32 as long as delays that become the earliest are polled with interrupts enabled."
}