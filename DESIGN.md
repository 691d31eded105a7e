# Formal model of rtic-rs/rtic in Lean 4 — design

## 1. Method

The code in `/repo` is read as text. Every Lean definition of the model cites the file and lines it
models. Each subject has up to four files under `lean/Verif/<Subject>/`:

* `Model.lean`  – the transcription of the code (functions / small-step machines);
* `Spec.lean`   – the small independent vocabulary in which the property is stated
  (where needed; e.g. "list of values sent so far");
* `Lemmas.lean` – invariants and helper lemmas;
* `Props.lean`  – the property theorems `C<nn>_...` and, next to each one, a concrete non-vacuity `example`.

### Concurrency
RTIC runs on one core with preemptive interrupts, and all shared data structures of rtic-sync /
rtic-common / rtic-time are touched only (a) inside critical sections, (b) through single atomic
accesses, or (c) by an exclusive owner. Models of concurrent code are therefore *small-step machines
whose atomic steps are exactly the critical sections / atomic accesses of the source*, and whose
executions are **arbitrary interleavings** of any number of threads (this covers preemptive interrupts,
which are a subset of all interleavings, and the multi-threaded tests of the repo). Hardware memory
order is not modelled (single core; critical sections are barriers), except for data races (`Race`).

### Wakers
A waker is an abstract identifier. Waking appends to a log / sets a flag. That waking leads to a poll
is the business of the executor model (C36–C39).

### Pointers
The intrusive lists (wait queue, timer list) are modelled on an explicit heap (address → link record)
exactly as in the code, with a refinement proof to `List`. The higher-level models
(channel, arbiter, timer queue) use the proved list interface.

### When the code violates the property
The negation is proved by a concrete witness execution of the model (`..._violated`), the part that does hold is
proved as `..._partial`, and the finding is recorded in section 4.

## 2. Trusted base

* Lean 4.33.0 kernel; axioms at most `propext`, `Classical.choice`, `Quot.sound` (listed by `#print axioms`
  by vcheck). No `native_decide`, no `bv_decide`, no own axioms.
* The reading of the source: correspondence between the cited lines and the definitions.
* Assumptions on things outside the repo: `critical_section::with` is a global mutual exclusion;
  `heapless::Deque` is a bounded double-ended queue; `core::task::Waker::wake` eventually causes the registered
  callback to run; hardware registers behave as in the comments of the models; Rust's ownership rules (a future is
  polled/dropped by its owner only, `&mut self` receivers are not used concurrently, `mem::forget` is not
  applied to pinned futures – excluded by the code's own documentation).

## 3. Per property plan

| id | modelled part and proof method |
|----|------|
| C01–C11 | `Channel`: small-step machine with one step per critical section of `channel.rs`; any number of concurrent send operations; invariant "slots are a permutation of 0..N distributed over owners", ghost history of values; invariants by induction over steps. C09, C10 are false of the code (witness + partial). |
| C12, C13 | `WaitQueue`: heap model of `wait_queue.rs`; refinement to `List` by a doubly-linked-segment invariant; induction over operations. |
| C14 | `WaitUntil`: interleaving machine; false (witness); partial: holds when check+register are not interrupted. |
| C15–C17 | `Arbiter`: one step per critical section; invariants. C17 false when a granted access is cancelled (witness) – partial without that cancellation. |
| C18 | `Spi`: transaction as a program over an abstract bus with arbitrary failure oracle; induction over operation list. |
| C19–C23 | `Signal`, `Watch`: one step per critical section/atomic; history invariants. C22 false (witness) – partial. |
| C24, C25 | `Ticks`: `BitVec n`; algebra via `BitVec.toInt`/`Nat`. |
| C26 | `TimerList`: heap model of `linked_list.rs`; refinement to `List` + sortedness. |
| C27–C30 | `TimerQueue`: handler/poll/drop machine with clock ticks between any two steps; invariants. |
| C31, C32 | `HalfPeriod`: arithmetic on `Nat`/`BitVec` for any width; service-schedule machine for parity; `HalfPeriod/Fine`: the same at the granularity of single register accesses (the handler preempted between any two accesses, the timer counting at any moment, `now` reading counter and timer in two steps). |
| C33–C35, C55 | `Backends`: compare registers, hi/lo read, SysTick, priority clamp. |
| C36–C39 | `Executor`: one step per atomic access of spawn / wake / poll / dispatcher; invariants. C38 false (stale waker witness) – partial. |
| C40–C45 | `Analysis`: the macro's analysis passes as pure functions over an abstract `App`; induction over access lists. C40 false (name collision witness) – partial. |
| C46–C48, C52 | `Srp`: preemptive single-stack machine with BASEPRI; invariants over every schedule. |
| C49, C50 | `SourceMask`: NVIC enable bits machine; mask functions. |
| C51 | `Esp32`: threshold machine; false (witness) – partial. |
| C53 | `Startup`: startup program machine with arbitrary pending interrupts; for SLIC in `Startup/Slic`. |
| C54 | `WakerReg`: register/wake machine; induction. |
| C56 | `Spi`: cancellation = a prefix of the call trace ending at a suspension point; false (witness) – partial. |
| C57, C58 | `Backends`: LETIMER through the half-period model; SysTick readers as an interleaving machine; both false (witness) – partial. |
| C59, C60 | `SourceMask`: exceptions (no NVIC bit) and foreign `NVIC::mask` calls are part of the machine; both false (witness) – partial. |
| C61, C62 | `Analysis`: generated spawn functions and their visibility; every `expect`/`assert!`/subtraction of the passes is an explicit panic result, shown unreachable. |
| C63 | `Executor`: counting invariant over the event trace. |
| C64 | `EndToEnd`: `Analysis.expand` composed with the machines `Srp` and `SourceMask`: the configuration of the machine is read off the generated program; its well-formedness is proved from acceptance. |
| C65 | `Backends/Start`: the prescaler computations of `_start` as functions; arithmetic proofs against a specification of the divider hardware. |
| C66 | `TimerHw`: timer queue machine composed with concrete compare registers (including the 52-bit comparator of the ESP32 system timer; `set_compare` split into clock read and register write); refinement into `TimerQueue` using C33, then C27/C28 carry over. |
| C67 | `TimerQueue`: invariant on the flags from handler entry; explicit terminating run by induction on the queue. |
| C68 | `Wakers`: induction over the action lists of Signal, Watch, WaitUntil, Channel, Arbiter and TimerQueue, comparing the waker woken with that of the last poll. Violated by `send`, `access`, `Delay`. |
| C69 | `Systimer`: interleaving machine of any number of readers over the latch registers; invariant relating latch, low half read and clock. False (witness) – partial. |
| C70 | `Analysis/Targets`: the ESP binding generation (`zip` of vectors and lines, enable calls, export names) as functions; injectivity by index arithmetic. False beyond 16/12 interrupts (witness) – partial. |
| C71 | `EndToEnd/Esp`: `expandEsp` composed with the machine `Esp32`. Inherits the failure of C51 (witness) – partial for ordered nestings. |
| C72 | `Analysis/Targets`: `slicPreprocess`; equality of the generated program with that of the application with explicit dispatchers. |
| C73 | `Channel/Progress`: rank functions on the program counters that decrease with every own critical section and are unchanged by others; for the receiver's drop, a count of slots that have left circulation. |
| C74 | `Srp/Blocking`: over the machine `Srp`, executions in which a task stays pending (whenever the hardware would admit it, it takes an interrupt of at least this priority); invariant on the stack of records: critical sections that block it are only left. |
| C75 | `SourceMask/Blocking`: the same over `SourceMask`; exact characterisation of the enabled interrupts by the records. False for interrupts of lower priority in another register (a witness, and `SourceMask/Register`: in every application of this kind) or exception-bound tasks – partial. |
| C76 | `Executor/Fair`: rank of the program counter of a caller; every access of its own lowers it, nobody else changes it. |
| C77 | `Executor/Fair`: number of polls of another task that can still come before the waiting task, from the position of the dispatcher in its list; at most 1 because the rest of the round and the part of the list before the waiting task are disjoint. ESP variants by refinement. |
| C78 | `Delay`: the machines `TimerQueue` and `Executor` side by side, the handler's `wake` being a call of a waker of the executor; invariant: a waiting delay is about to be inserted, in the list, or its wake is on the way to a poll of the task. |
| C79 | `Await`: product of a primitive's machine (Channel, Signal, Watch, Arbiter) and `Executor`, a wake event of the primitive being the begin of a call of the task's waker; the no-lost-wake-up theorem of the primitive (C05, C20, wait-queue invariants) gives a wake event since the latest poll of the task, and a generic invariant (a task woken since its latest poll is on the way to a poll) does the rest. `C22_task_polled_partial` is the same for Watch. |
| C80 | `Intrusive`: the machines of channel, arbiter and `wait_until` again, on the heap model of the wait queue: links and slot variables live at addresses chosen freely when a future is created, dead (and reusable) when its dropper has run; an access to dead memory sets a fault flag. Forward and backward simulation with the list-level machines by an ownership invariant (`Own`: the heap is the doubly linked list of the links of the waiting clients, nothing else). |
| C81 | `Intrusive/Timer`: the timer queue machine again on the heap model of `linked_list.rs`: the link lives in the memory of its `Delay`, at an address chosen freely at creation and reusable as soon as the `Delay` is dropped; an access to memory without a live link, or an endless search, sets a fault flag. Forward and backward simulation with `TimerQueue`. |
| C82 | `System`: the machine of `Srp` composed with one machine of `Executor` per dispatcher: calls of `spawn` and wakers are made access by access by whichever handler is on top of the stack, the dispatcher makes its accesses as a handler of `Srp`, its interrupt pending bit is that of the executors; an admitted pending interrupt is taken before the running code's next step. Projections to both machines; invariant on critical sections from `Srp/Blocking`, bound from `Executor` (`C54`). Restated for accepted applications in `EndToEnd/System`. |
| C83 | `Timed`: `System` composed with `TimerQueue`: the timer handler is a handler of `System` whose pending bit is the interrupt line of the timer, calls the wakers of the executors access by access, and the tasks operate on delays access by access when they are at the processor. Per dispatcher, `Delay`'s invariant (C78) is an invariant of the composition; with C28 a waiting, overdue task makes something of its priority pending or active, and `System`'s argument for C82 gives the rest. Counterexamples by an executable version of the machine (`System/Run`, `Timed/Run`) with a soundness theorem. Restated for accepted applications in `EndToEnd/Timed`. |
| C84 | `Analysis`: the rules as a specification on the raw input (`AcceptSpec`), independent of order; `expand` (and its ESP and SLIC variants) succeeds iff they hold. Both directions: each pass succeeds iff its share of the rules holds (induction over arguments, items, access lists), and the later passes are total. |
| C85 | `Cfg`: the specification deletes the switched-off parts from the raw input (`Switch.source`); the model filters the generated program as the `#(#cfgs)*` in the generated code do (`enabled`). The rules of C84 are closed under deletion; handlers, contexts, spawn functions, polled tasks of both programs are compared; C46/C52 are applied to the machine of the filtered program. |
| C86 | `Names`: the list of all definitions at the top level of the generated module with their namespaces and names as texts; `Plain` (specification) says which texts are in nobody's way. Distinctness by cases on prefixes, suffixes and the possible splittings at underscores; that the list has no repetition by C44 and the uniqueness of task names. |
| C87 | The machines of C52 (BASEPRI, interrupt masks, ESP32) for the generated program. The list of active handlers has strictly falling priorities (C52), priorities of handlers are priorities of tasks, and a strictly falling list is at most as long (and its needs sum to at most) as the list of priorities; need and use are arbitrary functions. |
| C88 | `Storage`: sizes, alignments and offsets by the layout algorithm of the Rust reference for `#[repr(C)]`; the `#[repr(Rust)]` executor is an arbitrary layout satisfying the reference's guarantees; memory is a map from addresses to (possibly uninitialised) bytes. Arithmetic on powers of two. |
| C89 | `WaitFree`: a rank on the program counter of one operation in the models `Signal`, `Watch`, `WaitUntil`, `Arbiter`, `TimerQueue` falls with each own step and is not changed by anybody else; case analysis shows that the next step is always possible. |
| C90 | `Build`: the two build scripts on arbitrary environments (strings as lists of characters), the feature tables and the `cfg`s that select modules. Permutation argument over the environment, then case analysis over the backend. |
| C91 | `MaskSystem`: the machine of `SourceMask` (register by register) composed with `Executor` as in C82. If all tasks of lower priority are bound to interrupts of the register of the dispatcher (`Plain`), whenever one of these is admitted and of higher priority than what runs, so is the dispatcher (`admits_free`, `admits_of_free`, `Blocker.mono`), then the argument of C82; critical sections are followed from register write to register write (`SameSection`). False (two complete executions as witnesses, computed by a machine proved sound for the relation) with a task of lower priority in another register and for exception-bound tasks (`MaskSystem/Register`: in every system of this kind; `EndToEnd/MaskRegister`: in every accepted application) – partial. For accepted applications in `EndToEnd/MaskSystem`. |
| C92 | `EspSystem`: the machine of `Esp32` (threshold, level-triggered lines) composed with `Executor` as in C82, with the clearing of the line as a step of its own between the entry of the dispatcher and `run`. Invariant: a dispatcher that has been entered and has not started has its line asserted; then the argument of C82. Hardware requests are treated the same way. Holds without any restriction on nested locks. For accepted applications in `EndToEnd/EspSystem`. |
| C93 | `Startup/Esp`: as C53, with the registers of the interrupt matrix that `enable` writes; a handler is entered through the mapping of the interrupt and the export name of the line. After-init theorems without restriction; the right-task and every-task theorems for at most 16 (12) handlers, beyond which they are false (`C93_task_never_runs_violated`) – partial. |
| C94 | `Returned`: on the machines `Channel`, `Signal`, `Watch`; the history is split at the latest registration. Invariant: a registered waker that has not been called is still stored; the step that returns empties the store by calling it. |
| C95 | `Sync`: product of a primitive's machine and `System` (interrupts, locks, all dispatchers), an action of the primitive being a step of the running code and a call of a task's waker being a step of `System`. The wake-up lemmas of `Await` are applied to the projection on one dispatcher; from the wake on, the preemption argument of C82. For accepted applications (`EndToEnd.Sync`) a task has one dispatcher by C44. |
| C96 | `Rcc`: the compile-time lookups as total functions on an arbitrary metadata value (panic = error), and the register accesses as a machine interleaved with arbitrary writes of other code. Lookup: soundness and, for unambiguous names, completeness by induction on the tables; run time: the execution is cut at each access of the code; bit lemmas on 32-bit words. |
| C97 | `Signature`: the macro's input below the level of `Analysis`: functions with qualifiers, patterns, types and paths, attributes, structs with fields, `extern` blocks; `parseApp` is `App::parse` on it. Specification `Reads`: which items a module consists of, given by the documented forms. Proof: by induction on the items, `parseApp` succeeds with the same result as the parser of C84 on the items read. `Signature/Kept.lean`: which functions are kept, in which order, and under which attributes (`KeptAll`), by induction on the items. |
| C98 | `Escape`: the references and proxies in every context with their lifetimes, computed from the parsed application; executions in which functions start and end and `'static` references are kept for ever. Invariant: held references come from started functions, those of ended functions are `'static`, functions that return have `'static` references only if they run once; aliasing across functions is excluded by the rules of C41, C42, C45. False if a user type converts into `Infallible` (finding). |
| C99 | `Escape.Spawn`: calls, returns, spawns with borrowed inputs as far as the compiler accepts them. Invariant: inputs of live tasks borrow nothing. False for `extern` tasks that return (finding). |
| C100 | `Grammar`: the argument parsers on tokens, with arbitrary `syn` parsers for paths, types, expressions. Grammar as relations on tokens; the loops accept exactly the grammar (induction on the number of tokens), the folds compute the meaning, which is invariant under permutation. |
| C101 | Same model; counterexamples for every `syn` (comma at the end, `local_task`) or a concrete one; what holds of each entry by cases. |
| C102 | `Front`: the macro from the tokens of the attributes on. A module with tokens is related to modules with read arguments (`Elab`), for which C97, C84 apply; the specification `Reads` is stated directly on tokens. The repository's own tests (`rtic-macros/ui`, `rtic/ui`, `examples/lm3s6965`) are translated by `tools/ui.py` and evaluated. `Front/Targets.lean`: the same for ESP32 and SLIC (with the argument `backend`). |
| C103 | `MaskSync`: as C95 with `MaskSystem` in place of `System`. Under the condition of C91 by the argument of C95, the preemption argument being that of C91; false with two registers (complete execution as witness) – partial. For accepted applications in `EndToEnd/MaskSync`. |
| C104 | `EspSync`: as C95 with `EspSystem`. For accepted applications in `EndToEnd/EspSync`. |
| C105 | `MaskTimed`: as C83 with `MaskSystem` in place of `System`; no lock masks the interrupt of the monotonic, which the macro does not know. Under the condition of C91 (`Plain`) by the argument of C83 on top of that of C91; the two counterexamples of C83 hold here too – partial. For accepted applications in `EndToEnd/MaskTimed`. |
| C106 | `EspTimed`: as C83 with `EspSystem` in place of `System`; the timer has priority 15, and `pend_interrupt` calls its handler inside the running code with interrupts disabled. The first counterexample of C83 holds here too – partial. For accepted applications in `EndToEnd/EspTimed`. |
| C107 | `EndToEnd/EspTimed`: lines of the `expandEsp` model (C70) against line 31 of the monotonic; false at exactly the number of lines – partial. |
| C108 | `TimerStart`: the `_start` functions as lists of register accesses on a model of the peripheral, ticks between any two accesses, any previous state; afterwards the state is that of the clock of C32; `C108_delay_interrupt` (any timer, any previous state): the delay interrupt is enabled exactly where no `enable_timer` does it later. False for RTCC, nRF TIMER and RTC – partial. |
| C109 | `TimerStart/Systick`: the accesses of the SysTick `_start` with cycles in between, from any previous state; closed formula for the number of ticks after `n` cycles. False for the first tick – partial. |
| C110 | `TimerStart/Ack`: the accesses that clear a flag, on flag words of any width with flags raised between accesses; bitwise proofs. False on RP2040/RP235x – partial. |
| C111 | `Race`: every step of the machines of `Channel`, `Arbiter`, `Signal`, `Watch`, `WaitUntil` annotated with its non-atomic memory accesses; happens-before = program order + critical sections; ownership invariant (own / shared under the lock / looked at under the lock). |
| C112 | `Race/Timer`: the machine of `TimerQueue` annotated with its accesses to links; same method. False for drops of popped delays on another core – partial. |
| C113 | `Race/Executor`: the machine of `Executor` annotated with the memory orderings of the flags (a token per release store, acquired by the read-modify-write that reads from it); invariant: who has seen / which token releases all accesses to each task's storage. False with wakers of earlier instances – partial. |
| C114 | `PendCall`: stack machine of tasks, `init`, critical sections and calls of `pend_interrupt` over the interrupt enable flag; invariant: flag and stack agree. False on the ESP32 (witness) – partial; proved for the backends that set a pending bit. |
| C115 | `MakeChannel`: any number of callers, one step per access to `CHECK`; inductive invariant. |
| C116 | `Systimer/Arm`: the register writes of `_start` and `set_compare` on bit vectors, reset values as parameters; every prefix of the accesses. |

C52 and C64 also have source-mask variants derived from an accepted program (`C52_mask_running_is_highest`, `C64_mask_lock_free_exclusive`, `C64_mask_local_exclusive` in `EndToEnd/Blocking`), and C74 is restated there about every accepted program (`C74_app_blocked_once`).

C52 and C62 have ESP variants (`C52_esp_running_is_highest`, `C62_esp_no_internal_panic`); C36, C37, C39, C63 have ESP variants in `Executor/Esp` (dispatcher with a software-cleared interrupt, by refinement into `Executor`). C37 is stated from the call of the waker (or the acceptance of the spawn) on: at every moment after the return of the call the task has been polled, or the dispatcher can proceed and has not had two rounds of processor time yet; so the only hypothesis about fairness is a count of dispatcher accesses. (An earlier statement named the access in which the waker pends the dispatcher and was vacuous for a waker that does not pend; found by mutation, see `seeded/LOG.jsonl`.)

Not expressible in a model here (and not listed as properties): the full aliasing model of `unsafe` code (C98 covers references as such), link sections, generated-code hygiene, timing/performance.

## 4. Findings: where the code does not have the property

Each is a theorem `..._violated` with a concrete execution (or, where stated, for every history).

* C09 `Receiver::try_recv` can report `NoSender` while a value is queued (the two checks are separate critical sections).
* C10 `Channel::split` does not reset `receiver_dropped` and does not drain `readyq`: a reused channel refuses every send.
* C14 `WaitQueue::wait_until`-style futures evaluate the condition before the link is registered; a wake in between is lost.
* C17 An `Arbiter::access` future dropped after the hand-over keeps the arbiter taken for ever.
* C22 `watch` readers mark as seen whatever is stored, not what they copied: a write in between is lost for `changed()`.
* C33 RP2040/RP235x alarms can be one tick late; the nRF RTC compare up to two ticks.
* C38 A stale waker, or `task::waker()`, can set the pending flag between allocation and storing of a future: the dispatcher
  polls an uninitialised or completed future, reachable from safe code.
* C40, C43 A local resource named like a shared one overwrites its ceiling (and hides its `Send` obligation): two tasks get inside `lock`.
* C48 With 8 priority bits `1u8 << nvic_prio_bits` overflows: a panic, or priority 1 becomes the most urgent one.
* C51 ESP32-C3/C6: a nested lock with a lower ceiling lowers the threshold.
* C56 Dropping a suspended SPI transaction leaves chip-select asserted.
* C57 The Silabs LETIMER is 24 bits wide but extended as if it were 32.
* C58 SysTick: a reader preempted between flag and counter makes others read an old time.
* C59 thumbv6/v8m.base: tasks bound to exceptions are not excluded by `lock`.
* C60 thumbv6/v8m.base: leaving a lock re-enables interrupts masked by the application meanwhile, if they share a register.
* C75 thumbv6/v8m.base with more than 32 interrupts: `lock` masks register after register, so while it is half-way a lower-priority task (whose interrupt
  lies in a later register) runs in full although a higher-priority one is pending. The same for lower-priority exceptions during the whole lock.
* C91 The same windows let a task of lower priority start after a call of `spawn` for a task of higher priority has returned.
* C65 Silabs TIMER: divisors between 1025 and 65536 are accepted but the prescaler field has 10 bits: the timer runs too fast.
* C68 `send`, `access` and `Delay` futures keep the waker of their first poll; re-polled with another waker they wake the old one.
* C69 ESP32 `now()`: a call preempted between the two halves by another `now()` returns up to 2^32 ticks (268 s) too much, so delays can fire early;
  the counter has 52 bits (wraps after 8.9 years) while `Ticks = u64`.
* C70 ESP32-C6 silently drops the 13th and later interrupts (not enabled, no handler exported); on the C3 the 17th gets line 32.
* C71 C51 is reachable in accepted applications.
* C83 `Delay::poll` pends the timer interrupt after the critical section in which it inserted the new earliest delay. A low-priority task preempted there delays the wake-up of more urgent
  tasks that insert later delays meanwhile, for as long as tasks between the two priorities run. Also: the timer interrupt is below all hardware tasks, so a software task above some hardware task waits for it.
* C85 `#[cfg]`: `main` configures and unmasks the interrupts of hardware tasks that are switched off (`bindings/cortex.rs:204-265`); nothing handles them
  (`C85_interrupts_violated`). `assertions.rs` demands `Send`/`Sync` of types of switched-off resources (`C85_bounds_violated`). Two tasks for one interrupt
  under opposite `#[cfg]`s are refused (`C85_variants_violated`).
* C86 names: `__rtic_internal_local_<task>_<resource>`, `__rtic_internal_local_resource_<field>`, `__rtic_internal_<task>_spawn`, `__rtic_internal_shared_resource_<field>`
  can coincide for different tasks and resources (`C86_*_violated`); rustc then refuses the module (E0428), so no unsound code results.
* C87 on ESP32-C3/C6: `run` at priority 1 ends with `cpu_int_thresh().write(1)` while the trap handler of the runtime is still to return (`riscv_esp32c3.rs:11-17`, `riscv_esp32c6.rs` likewise). An interrupt of priority 1 pending then is taken
  on top, and so on: the stack is unbounded under a sufficient load of priority-1 interrupts (`C87_esp_violated`). Handlers of priority ≥ 2 restore the value read at entry.

Further observations that are not properties here: several `#[shared]` (or `#[local]`) structs are accepted as long as all but the last have no fields
(`C84`'s rules say so); a popped
`Delay` that is not polled for half the range of the clock reverts to not-ready and is never re-inserted; `timeout_at` does not check
`initialized`; the ESP monotonic's `pend_interrupt` runs the handler synchronously and then enables interrupts;
the macro does not refuse a hardware task bound to `__RTICDispatcher0` on
SLIC nor check SLIC priorities; LETIMER `now` is a tick ahead while the counter is 0.
* C98 `assert_task_diverges` demands `Into<Infallible>`, which users can implement (`impl From<Mine> for Infallible`): an extern task declared `-> !` can return, and its `&'static mut` resources are handed out again.
* C99 An extern task that returns may take references as inputs: the generated `spawn` transmutes its future, so that borrowed data of the caller may be passed, and outlived.
* C101 `#[idle(shared = [a],)]` is refused, `#[task(shared = [a],)]` accepted; `local = [a: u8 = 0 b]` is accepted; `shared = [#[cfg(x)] a]` and `local = [#[cfg(x)] a]` ignore the `cfg`; an attribute on the last local resource is ignored, on others refused; `local_task` is ignored on hardware tasks; `#[task = "priority = 2"]` makes a task of priority 0.
* C103: with interrupts in two registers, a task of lower priority is started after the `write` that makes the awaited future of a task of higher priority ready has returned and before that task is polled (same cause as C91).
* C105: the two cases of C83 also on source-masking targets.
* C106: the first case of C83 also on ESP32-C3/C6.
* C107: on the C3 the 16th, on the C6 the 12th handler gets line 31 and the symbol `interrupt31`, which the monotonic uses.
* C108: RTCC `_start` neither stops nor clears the counter nor clears flags: left running in its second half period it panics at the first overflow, with a stale CC1 flag time jumps by 2^32. nRF RTC/TIMER `_start` do not stop the counter (prescaler write ignored while running), TIMER keeps `MODE`/`SHORTS`.
* C109: SysTick `_start` does not clear the current value (unknown after reset): the first tick may come 16777215 cycles late.
* C110: RP2040/RP235x `clear_compare_flag` is `intr().modify(..)` on a write-one-to-clear register: it also clears the pending flags of the other alarms.
* C112: `Delay::drop` tests `was_popped` outside of a critical section; with the timer interrupt on another core the link is freed while `pop_if` still reads it (`was_popped` is stored before the waker is cloned). Not reachable on one core.
* C113: `set_pending` is a plain release store: a waker of an earlier instance that sets the flag between `spawn` and the poll takes the place of `spawn`'s store, and the dispatcher does not synchronise with the spawner. Not observable on one core.
* C114 ESP32-C3/C6: `pend_interrupt` enables interrupts unconditionally: a delay polled in `init` (e.g. by a `block_on`) lets tasks start before the resources are initialised, one polled in a critical section ends its protection.

## 5. What is modelled, what is not

| model | modelled source | simplifications |
|---|---|---|
| `Channel` | `rtic-sync/src/channel.rs` (all methods) | values abstract; the wait queue as list of waiting sends (justified by C80); `make_channel!` = `init` |
| `WaitQueue`, `WaitUntil`, `WakerReg` | `rtic-common/src/wait_queue.rs`, `waker_registration.rs` | heap of link records; raw-pointer provenance not modelled |
| `Intrusive` | `rtic-sync/src/channel.rs`, `arbiter.rs`, `rtic-common/src/wait_queue.rs` (`wait_until`), `dropper.rs`, `rtic-time/src/timer_queue.rs`, `linked_list.rs` | discharges the list interface assumed by `Channel`, `Arbiter`, `WaitUntil`, `TimerQueue`; memory of a future = its link and slot variables, dead from the end of the dropper on; aliasing/provenance not modelled |
| `System` | composition of `Srp` and `Executor` (`rtic/src/export/cortex_basepri.rs`, `executor.rs`, `codegen/module.rs`, `async_dispatchers.rs`) | peripherals pend only interrupts of hardware tasks; an interrupt pended by an instruction is taken before the next step of the same code; calls made by `init` are given by the start condition `Start` (all over, no dispatcher has run); NVIC: pending bit cleared on entry, most urgent admitted interrupt first |
| `Timed` | composition of `System` and `TimerQueue` (`rtic-time/src/timer_queue.rs`, `rtic-monotonics/src/lib.rs: set_monotonic_prio`) | the timer handler is treated like a hardware task that neither locks nor spawns; a delay belongs to one task; `init` polls no delay |
| `Arbiter`, `Spi` | `rtic-sync/src/arbiter.rs`, `arbiter/spi.rs` | bus and pins are oracles that may fail at any call |
| `Signal`, `Watch` | `rtic-sync/src/signal.rs`, `watch.rs` | values abstract |
| `Ticks`, `TimerList`, `TimerQueue` | `rtic-time/src/timer_queue.rs`, `timer_queue/tick_type.rs`, `linked_list.rs` | the clock may advance between any two steps; the handler is not re-entered (it is one interrupt) |
| `HalfPeriod`, `Backends` | `rtic-time/src/half_period_counter.rs`, the compare/now functions of the `rtic-monotonics` backends named in the files | register behaviour as stated in the comments |
| `Backends/Start` | the tick-rate arithmetic of `_start`/`presc` in `systick.rs`, `stm32.rs`, `silabs/timer.rs`, `silabs/letimer.rs`, `nrf/timer.rs` | register writes other than prescaler/reload dropped |
| `TimerHw` | the `TimerQueueBackend` impls of `rtic-monotonics` as hardware under `TimerQueue`: compare register, wrap, overflow interrupt, two-step `set_compare` | refinement into `TimerQueue`; the hardware compares by equality at each tick |
| `TimerStart` | `_start` of stm32, silabs TIMER and RTCC, imxrt, nrf TIMER and RTC, systick: every register access; the acknowledging of flags (`Ack`) | previous state arbitrary; trusted from the reference manuals: effect of each access (reset, update event, `ENMOD`, prescaler read-only while nRF counters run, `COUNTFLAG` cleared by reads); bus clocks and assertions before the first access left out (C65, C96); interrupt handler does not run before the unmask at the end |
| `Race` | the non-atomic memory accesses of `channel.rs`, `arbiter.rs`, `signal.rs`, `watch.rs`, `wait_queue.rs` (`wait_until`), `timer_queue.rs`, `linked_list.rs`, `executor.rs` | every party is its own thread; critical sections are one lock (multi-core `critical-section` implementation assumed correct); atomics read the latest value, relaxed ones give no ordering; `AtomicPtr` fields cannot race; one event per critical section |
| `Executor` | `rtic/src/export/executor.rs`, `rtic-macros/src/codegen/{async_dispatchers,module}.rs` | future body = arbitrary sequence of Pending/Ready; storage/alignment: see `Storage`; `Executor/Esp`: the ESP32 dispatcher (`bindings/esp32c*.rs`), which first clears its software interrupt |
| `Delay` | composition of `TimerQueue` and `Executor` (`timer_queue.rs:117`, `module.rs:193-201`) | one dispatcher; a delay is polled by the task that owns it only |
| `Await` | composition of `Channel`, `Signal`, `Watch` or `Arbiter` with `Executor` (`waker_registration.rs:56-64`, `wait_queue.rs`: `pop`, `module.rs:193-201`) | one dispatcher; a waker that belongs to no task of it has no effect; any thread may perform any action |
| `Sync` | composition of `Channel`, `Signal`, `Watch` or `Arbiter` with `System`: same sources as `Await` and `System` | BASEPRI targets; which code performs which action of the primitive is not restricted; other primitives and timers are present as calls of wakers at any time |
| `Returned` | no model of its own; theorems about histories of `Channel`, `Signal`, `Watch` | as those |
| `Rcc` | `stm32/meta.rs` whole, `stm32.rs:322-324` | metadata is an arbitrary value; a register is a memory word; the barrier has no effect |
| `Signature` | `syntax/parse/app.rs` `App::parse` on functions, structs and `extern` blocks, `parse/{init,idle,hardware_task,software_task,util,resource}.rs` | identifiers and keywords are numbers; expressions, bodies, docs and `use` items are absent; arguments of attributes are split at the commas |
| `Escape` | lifetimes in `codegen/{local_resources_struct,shared_resources_struct,module,software_tasks,hardware_tasks,init,idle}.rs`, `assert_task_diverges` | Rust's borrow rules are taken as: a reference with a generic lifetime does not outlive the call, a `'static` one may be kept; lock exclusion is a precondition (C46, C49, C51) |
| `Grammar` | `syntax/parse.rs` (`init_args`, `idle_args`, `task_args`), `parse/util.rs` (lists of resources), `parse/app.rs` (`AppArgs::parse`), `syntax/backend/*` | tokens; `syn`'s parsers for paths, types and expressions are parameters; error messages are left out |
| `Front` | `lib.rs`, `syntax.rs` (`parse2`), `syntax/parse.rs` (`app`), `parse/app.rs` on attributes with tokens | items come from `syn`; tokens of attributes other than `init`, `idle`, `task` are not kept; first error instead of all during parsing, as in the code |
| `Srp`, `SourceMask`, `Esp32` | `rtic/src/export/{cortex_basepri,cortex_source_mask,riscv_esp32c3,riscv_esp32c6}.rs` | NVIC/BASEPRI/PRIMASK and the ESP threshold as in the architecture manuals; ESP trap entry/exit of the run time trusted |
| `Analysis` | `rtic-macros/src/syntax/{parse,ast,analyze,check}.rs`, `analyze.rs`, `check.rs`, `codegen/*.rs` | identifiers and types are numbers; token-level syntax, spans, attributes (cfg: see `Cfg`), user code and docs are dropped; errors are tagged by kind |
| `Cfg` | the `#(#cfgs)*` of `rtic-macros/src/codegen/*.rs` | tasks, resource fields and declared locals only (`init`/`idle` always exist); the user's bodies do not mention parts that do not exist; cfg values are arbitrary Booleans per part; Cortex-M with BASEPRI |
| `Names` | names in `rtic-macros/src/codegen/*.rs`, `codegen/util.rs` (Cortex-M) | definitions at the top level of the module only; contents of the per-task modules, `impl`s and the user's own further items are left out; texts of identifiers are arbitrary lists of characters |
| `Analysis/Targets` | `rtic-macros/src/codegen/bindings/{esp32c3,esp32c6,riscv_slic}.rs`, `preprocess.rs` | as `Analysis` |
| `Storage` | `rtic/src/export/executor.rs:30-206`, `rtic-macros/src/codegen/util.rs:165-195` | `transmute` copies bytes between types of equal size; `const` assertions are checks at compile time |
| `Build` | `rtic/build.rs`, `rtic/Cargo.toml` (features), `rtic/src/export.rs`, `rtic-macros/build.rs`, `rtic-macros/Cargo.toml` (features), `rtic-macros/src/codegen/bindings.rs`, `rtic-macros/src/syntax/backend.rs` | Cargo: one variable per enabled feature; `cargo::error` stops the build; `to_lowercase` on ASCII |
| `MaskSystem` | composition of `SourceMask` and `Executor` (`rtic/src/export/cortex_source_mask.rs`, `executor.rs`, `codegen/module.rs`, `async_dispatchers.rs`) | as `System`; tasks do not call `NVIC::mask` |
| `EspSystem` | composition of `Esp32` and `Executor` (`rtic/src/export/riscv_esp32c3.rs`, `executor.rs`, `codegen/bindings/esp32c3.rs:177-187`, `codegen/module.rs`, `async_dispatchers.rs`) | as `System`; the lines of hardware tasks are asserted and withdrawn at any moment |
| `MaskSync`, `EspSync` | composition of `Channel`, `Signal`, `Watch` or `Arbiter` with `MaskSystem`, `EspSystem` | as `Sync` |
| `MaskTimed` | composition of `MaskSystem` and `TimerQueue` | as `Timed`; the interrupt of the monotonic is in no mask |
| `EspTimed` | composition of `EspSystem` and `TimerQueue`; `rtic-monotonics/src/esp32c3.rs:123-134`, `esp32c6.rs` (`pend_interrupt`) | as `Timed`; delays are not polled with interrupts disabled |
| `Systimer` | `rtic-monotonics/src/{esp32c3,esp32c6}.rs`: `now` | update/valid handshake and 2 × 32-bit latch as in the reference manual |
| `Systimer/Arm` | `rtic-monotonics/src/{esp32c3,esp32c6}.rs`: `set_compare`, timer registers of `_start` | reset values are parameters, field positions as in the reference manual; a `write` starts from the reset value |
| `PendCall` | `pend_interrupt` of all monotonics, `pre_init.rs`/`post_init.rs` (interrupt flag) | no priorities: any interrupt may be taken while enabled |
| `MakeChannel` | `rtic-sync/src/channel.rs` `make_channel!` | critical section as a lock |
| `Startup` | `rtic-macros/src/codegen/{main,pre_init,post_init}.rs` with the cortex bindings | statement list with an interrupt possible before each |
| `Startup/Esp`, `Startup/Slic` | the same with `bindings/{esp32c3,esp32c6,riscv_slic}.rs`, `rtic/src/export/riscv_esp32c3.rs:132-149`, `slic.rs` | no CPU line is enabled at reset; `riscv_slic` trusted |
| `EndToEnd` | composition of the above | handlers are vectors, idle is the thread |

Not modelled: the run-time part of the RISC-V SLIC/CLINT back ends (`run`, `lock`, `pend` come from the external crate `riscv_slic`; their macro side is), `xtask`, examples, board support code, weak-memory behaviour of atomics (stale values; happens-before of non-atomic accesses is modelled, C111–C113).
